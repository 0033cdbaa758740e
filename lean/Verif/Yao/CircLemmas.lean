import Verif.Spec.Garble
import Mathlib.Tactic.Linarith
import Mathlib.Tactic.Ring
import Mathlib.Tactic.Convert

/-!
# Relational reasoning about circuits

`CSpec E Q c c'`: two runs of the same circuit code, on wires related by `E` to the same bits, go
through the same gates and end with results related by `Q`.  Instances: plain bits, and garbler against
evaluator.
-/

namespace Verif.Yao

open Circ

/-- The sum of digits that need not be bits, least significant first. -/
def wval : List Nat → Nat
  | [] => 0
  | n :: ns => n + 2 * wval ns

/-- The evaluator's label of a wire with zero label `g` carrying bit `b`. -/
def Enc (d : Label) (g e : Label) (b : Bool) : Prop := e = g ^^^ d.cmul b

theorem color_xor (a b : Label) : Label.color (a ^^^ b) = (a.color ^^ b.color) := by
  simp [Label.color]

theorem cmul_false (d : Label) : d.cmul false = 0 := rfl
theorem cmul_true (d : Label) : d.cmul true = d := rfl

theorem cmul_xor (d : Label) (x y : Bool) : d.cmul (x ^^ y) = d.cmul x ^^^ d.cmul y := by
  cases x <;> cases y <;> simp [Label.cmul]

/-- Half gates are correct. -/
theorem andGate {d : Label} (hd : d.color = true) (H : Hash) (n : Nat) {a b a' b' : Label} {x y : Bool}
    (ha : Enc d a a' x) (hb : Enc d b b' y) :
    Enc d (garbleAndGate H n a b d).2.2
      (evaluateAndGate H n a' b' (garbleAndGate H n a b d).1 (garbleAndGate H n a b d).2.1) (x && y) := by
  unfold Enc at *
  subst ha hb
  have e0 : ∀ u v : Label, u ^^^ v ^^^ v = u := fun u v => by rw [BitVec.xor_assoc]; simp
  have e1 : ∀ u v : Label, u ^^^ (u ^^^ v) = v := fun u v => by rw [← BitVec.xor_assoc]; simp
  have e2 : ∀ u : Label, u ^^^ (0 : Label) = u := fun u => BitVec.xor_zero
  have e3 : ∀ u : Label, (0 : Label) ^^^ u = u := fun u => BitVec.zero_xor
  have e4 : ∀ u v : Label, u ^^^ (v ^^^ u) = v := fun u v => by rw [BitVec.xor_comm v, e1]
  have e5 : ∀ u v w : Label, u ^^^ v ^^^ (w ^^^ v) = u ^^^ w := fun u v w => by
    rw [BitVec.xor_assoc, e4]
  have e6 : ∀ u v w : Label, u ^^^ w ^^^ v = u ^^^ v ^^^ w := fun u v w => by
    rw [BitVec.xor_assoc, BitVec.xor_comm w, BitVec.xor_assoc]
  rcases hca : a.color <;> rcases hcb : b.color <;> cases x <;> cases y <;>
    simp only [evaluateAndGate, garbleAndGate, cmul_false, cmul_true, color_xor, hca, hcb, hd, e0, e1, e2,
      e3, Bool.false_xor, Bool.true_xor, Bool.not_true, Bool.not_false, if_true, if_false,
      Bool.and_true, Bool.and_false, Bool.true_and, Bool.false_and, Bool.xor_false, Bool.xor_true,
      Bool.false_eq_true, BitVec.xor_self, e4, e5, ← BitVec.xor_assoc] <;>
    first
      | exact e6 _ _ _
      | (rw [e6 (H (.gate n) (a ^^^ d)) (H (.gate n) (b ^^^ d)) d, e0])

/-! ### Relational rules -/

/-- Two runs of the same circuit code go through the same gates, on wires related to the same bits. -/
inductive CSpec {I J : Type} (E : I → J → Bool → Prop) {α β : Type} (Q : α → β → Prop) :
    Circ I α → Circ J β → Prop
  | ret {a b} : Q a b → CSpec E Q (.ret a) (.ret b)
  | and {a b a' b' x y k k'} : E a a' x → E b b' y →
      (∀ c c', E c c' (x && y) → CSpec E Q (k c) (k' c')) → CSpec E Q (.and a b k) (.and a' b' k')
  | xor {a b a' b' x y k k'} : E a a' x → E b b' y →
      (∀ c c', E c c' (x ^^ y) → CSpec E Q (k c) (k' c')) → CSpec E Q (.xor a b k) (.xor a' b' k')
  | negate {a a' x k k'} : E a a' x →
      (∀ c c', E c c' (!x) → CSpec E Q (k c) (k' c')) → CSpec E Q (.negate a k) (.negate a' k')
  | zero {k k'} : (∀ c c', E c c' false → CSpec E Q (k c) (k' c')) → CSpec E Q (.zero k) (.zero k')
  | one {k k'} : (∀ c c', E c c' true → CSpec E Q (k c) (k' c')) → CSpec E Q (.one k) (.one k')

section Rules

variable {I J : Type} {E : I → J → Bool → Prop} {α β γ δ : Type} {Q : α → β → Prop} {R : γ → δ → Prop}

theorem CSpec.pure {a : α} {b : β} (h : Q a b) :
    CSpec E Q (Pure.pure a : Circ I α) (Pure.pure b : Circ J β) := .ret h

theorem CSpec.bind {c : Circ I α} {c' : Circ J β} {f : α → Circ I γ} {f' : β → Circ J δ}
    (h : CSpec E Q c c') (hf : ∀ a b, Q a b → CSpec E R (f a) (f' b)) :
    CSpec E R (c >>= f) (c' >>= f') := by
  simp only [bind_def]
  induction h with
  | ret h => exact hf _ _ h
  | and ha hb _ ih => exact .and ha hb ih
  | xor ha hb _ ih => exact .xor ha hb ih
  | negate ha _ ih => exact .negate ha ih
  | zero _ ih => exact .zero ih
  | one _ ih => exact .one ih

theorem CSpec.mono {Q' : α → β → Prop} {c : Circ I α} {c' : Circ J β} (h : CSpec E Q c c')
    (hq : ∀ a b, Q a b → Q' a b) : CSpec E Q' c c' := by
  have := h.bind (f := Circ.ret) (f' := Circ.ret) (R := Q') fun a b h => CSpec.ret (hq a b h)
  rwa [show c >>= Circ.ret = c from bind_pure c, show c' >>= Circ.ret = c' from bind_pure c'] at this

theorem CSpec.gAnd {a b a' b' x y} (ha : E a a' x) (hb : E b b' y) :
    CSpec E (fun c c' => E c c' (x && y)) (Circ.gAnd a b) (Circ.gAnd a' b') :=
  .and ha hb fun _ _ h => .ret h

theorem CSpec.gXor {a b a' b' x y} (ha : E a a' x) (hb : E b b' y) :
    CSpec E (fun c c' => E c c' (x ^^ y)) (Circ.gXor a b) (Circ.gXor a' b') :=
  .xor ha hb fun _ _ h => .ret h

theorem CSpec.gNot {a a' x} (ha : E a a' x) :
    CSpec E (fun c c' => E c c' (!x)) (Circ.gNot a) (Circ.gNot a') :=
  .negate ha fun _ _ h => .ret h

theorem CSpec.constZero : CSpec E (fun c c' => E c c' false) Circ.constZero Circ.constZero :=
  .zero fun _ _ h => .ret h

theorem CSpec.constOne : CSpec E (fun c c' => E c c' true) Circ.constOne Circ.constOne :=
  .one fun _ _ h => .ret h

theorem CSpec.const (b : Bool) : CSpec E (fun c c' => E c c' b)
    (if b then Circ.constOne else Circ.constZero) (if b then Circ.constOne else Circ.constZero) := by
  cases b
  · exact .constZero
  · exact .constOne

theorem CSpec.gOr {a b a' b' x y} (ha : E a a' x) (hb : E b b' y) :
    CSpec E (fun c c' => E c c' (x || y)) (Circ.gOr a b) (Circ.gOr a' b') := by
  refine (CSpec.gNot ha).bind fun n n' hn => ?_
  refine (CSpec.gNot hb).bind fun m m' hm => ?_
  refine (CSpec.gAnd hn hm).bind fun z z' hz => ?_
  refine (CSpec.gNot hz).mono fun c c' hc => ?_
  simpa using hc

theorem CSpec.gMux {b b' a a' c c' t x y} (hb : E b b' t) (ha : E a a' x) (hc : E c c' y) :
    CSpec E (fun r r' => E r r' (if t then y else x)) (Circ.gMux b a c) (Circ.gMux b' a' c') := by
  refine (CSpec.gXor ha hc).bind fun n n' hn => ?_
  refine (CSpec.gAnd hb hn).bind fun m m' hm => ?_
  refine (CSpec.gXor hm ha).mono fun r r' hr => ?_
  convert hr using 1
  cases t <;> cases x <;> cases y <;> rfl

end Rules

/-! ### Lists of wires -/

/-- Three lists, related element by element. -/
inductive All3 {α β γ : Type} (R : α → β → γ → Prop) : List α → List β → List γ → Prop
  | nil : All3 R [] [] []
  | cons {a b c as bs cs} : R a b c → All3 R as bs cs → All3 R (a :: as) (b :: bs) (c :: cs)

namespace All3

variable {α β γ α' β' γ' : Type} {R : α → β → γ → Prop} {R' : α' → β' → γ' → Prop}
  {as : List α} {bs : List β} {cs : List γ} {as' : List α'} {bs' : List β'} {cs' : List γ'}

theorem len (h : All3 R as bs cs) : as.length = cs.length := by
  induction h with
  | nil => rfl
  | cons _ _ ih => simp [ih]

theorem len' (h : All3 R as bs cs) : bs.length = cs.length := by
  induction h with
  | nil => rfl
  | cons _ _ ih => simp [ih]

theorem zip (h : All3 R as bs cs) (h' : All3 R' as' bs' cs') :
    All3 (fun a b c => R a.1 b.1 c.1 ∧ R' a.2 b.2 c.2) (as.zip as') (bs.zip bs') (cs.zip cs') := by
  induction h generalizing as' bs' cs' with
  | nil => simpa using All3.nil
  | cons h _ ih =>
    cases h' with
    | nil => simpa using All3.nil
    | cons h' hs' => exact .cons ⟨h, h'⟩ (ih hs')

theorem append {as₂ : List α} {bs₂ : List β} {cs₂ : List γ} (h : All3 R as bs cs)
    (h' : All3 R as₂ bs₂ cs₂) : All3 R (as ++ as₂) (bs ++ bs₂) (cs ++ cs₂) := by
  induction h with
  | nil => exact h'
  | cons h _ ih => exact .cons h ih

theorem flatten {as : List (List α)} {bs : List (List β)} {cs : List (List γ)} (h : All3 (All3 R) as bs cs) :
    All3 R as.flatten bs.flatten cs.flatten := by
  induction h with
  | nil => exact .nil
  | cons h _ ih => simpa using h.append ih

theorem reverse (h : All3 R as bs cs) : All3 R as.reverse bs.reverse cs.reverse := by
  induction h with
  | nil => exact .nil
  | cons h _ ih =>
    simp only [List.reverse_cons]
    exact ih.append (.cons h .nil)

theorem take (n : Nat) (h : All3 R as bs cs) : All3 R (as.take n) (bs.take n) (cs.take n) := by
  induction h generalizing n with
  | nil => simpa using All3.nil
  | cons h _ ih =>
    cases n with
    | zero => exact .nil
    | succ n => exact .cons h (ih n)

theorem drop (n : Nat) (h : All3 R as bs cs) : All3 R (as.drop n) (bs.drop n) (cs.drop n) := by
  induction h generalizing n with
  | nil => simpa using All3.nil
  | cons h hs ih =>
    cases n with
    | zero => exact .cons h hs
    | succ n => exact ih n

theorem getLast (h : All3 R as bs cs) (ha : as ≠ []) (hb : bs ≠ []) (hc : cs ≠ []) :
    R (as.getLast ha) (bs.getLast hb) (cs.getLast hc) := by
  induction h with
  | nil => exact absurd rfl ha
  | cons h hs ih =>
    cases hs with
    | nil => exact h
    | cons h' hs' =>
      have := ih (by simp) (by simp) (by simp)
      simpa using this

theorem replicate {a : α} {b : β} {c : γ} (h : R a b c) (n : Nat) :
    All3 R (List.replicate n a) (List.replicate n b) (List.replicate n c) := by
  induction n with
  | zero => exact .nil
  | succ n ih => exact .cons h ih

theorem map {f : α → α'} {g : β → β'} {k : γ → γ'} (h : All3 R as bs cs)
    (hf : ∀ a b c, R a b c → R' (f a) (g b) (k c)) : All3 R' (as.map f) (bs.map g) (cs.map k) := by
  induction h with
  | nil => exact .nil
  | cons h _ ih => exact .cons (hf _ _ _ h) ih

theorem mono {S : α → β → γ → Prop} (h : All3 R as bs cs) (hf : ∀ a b c, R a b c → S a b c) :
    All3 S as bs cs := by
  induction h with
  | nil => exact .nil
  | cons h _ ih => exact .cons (hf _ _ _ h) ih

theorem refl {l : List γ} : All3 (fun a b c : γ => a = c ∧ b = c) l l l := by
  induction l with
  | nil => exact .nil
  | cons a l ih => exact .cons ⟨rfl, rfl⟩ ih

end All3

section Lists

variable {I J : Type} {E : I → J → Bool → Prop} {α β γ δ ε ζ ν ω : Type}

theorem CSpec.mapM {R : α → β → ν → Prop} {S : γ → δ → ω → Prop} {f : α → Circ I γ} {f' : β → Circ J δ}
    (k : ν → ω) (hf : ∀ a b n, R a b n → CSpec E (fun r r' => S r r' (k n)) (f a) (f' b))
    {as : List α} {bs : List β} {ns : List ν} (h : All3 R as bs ns) :
    CSpec E (fun r r' => All3 S r r' (ns.map k)) (as.mapM f) (bs.mapM f') := by
  induction h with
  | nil => exact CSpec.pure .nil
  | cons h _ ih =>
    simp only [List.mapM_cons]
    refine (hf _ _ _ h).bind fun r r' hr => ?_
    refine ih.bind fun rs rs' hrs => ?_
    exact CSpec.pure (.cons hr hrs)

/-- `scan` refines a fold with outputs. -/
theorem CSpec.scan {R : α → β → ν → Prop} {S : γ → δ → Bool → Prop} {f : ε → α → Circ I (γ × ε)}
    {f' : ζ → β → Circ J (δ × ζ)} {C : ε → ζ → Bool → Prop} {w : ν → Nat}
    (hf : ∀ c c' x a b n, C c c' x → R a b n →
      CSpec E (fun r r' => ∃ s y, S r.1 r'.1 s ∧ C r.2 r'.2 y ∧ s.toNat + 2 * y.toNat = w n + x.toNat)
        (f c a) (f' c' b))
    {as : List α} {bs : List β} {ns : List ν} (h : All3 R as bs ns) {c : ε} {c' : ζ} {x : Bool}
    (hc : C c c' x) :
    CSpec E (fun r r' => ∃ ss y, All3 S r.1 r'.1 ss ∧ C r.2 r'.2 y ∧ ss.length = ns.length ∧
        val ss + 2 ^ ns.length * y.toNat = wval (ns.map w) + x.toNat)
      (Circ.scan f c as) (Circ.scan f' c' bs) := by
  induction h generalizing c c' x with
  | nil => exact CSpec.pure ⟨[], x, .nil, hc, rfl, by simp [val, wval]⟩
  | cons h _ ih =>
    refine (hf _ _ _ _ _ _ hc h).bind fun r r' hr => ?_
    obtain ⟨s, y, hs, hy, e⟩ := hr
    refine (ih hy).bind fun rs rs' hrs => ?_
    obtain ⟨ss, z, hss, hz, hl, e'⟩ := hrs
    refine CSpec.pure ⟨s :: ss, z, .cons hs hss, hz, by simp [hl], ?_⟩
    simp only [val, wval, List.map_cons, List.length_cons, pow_succ]
    linarith

end Lists

end Verif.Yao
