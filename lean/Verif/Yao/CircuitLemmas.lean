import Verif.Yao.Circuits
import Verif.Yao.CircLemmas

/-!
# What the predefined circuits compute
-/

namespace Verif.Yao

/-! ### Numbers and bits -/

theorem val_append (a b : List Bool) : val (a ++ b) = val a + 2 ^ a.length * val b := by
  induction a with
  | nil => simp [val]
  | cons x a ih => simp only [List.cons_append, val, ih, List.length_cons, pow_succ]; ring

theorem val_lt (a : List Bool) : val a < 2 ^ a.length := by
  induction a with
  | nil => simp [val]
  | cons x a ih =>
    simp only [val, List.length_cons, pow_succ]
    have := Bool.toNat_lt x
    omega

theorem val_take_add (n : Nat) (a : List Bool) (h : n ≤ a.length) :
    val a = val (a.take n) + 2 ^ n * val (a.drop n) := by
  conv_lhs => rw [← List.take_append_drop n a]
  rw [val_append, List.length_take, min_eq_left h]

theorem val_take (n : Nat) (a : List Bool) : val (a.take n) = val a % 2 ^ n := by
  by_cases h : n ≤ a.length
  · rw [val_take_add n a h, Nat.add_mul_mod_self_left, Nat.mod_eq_of_lt]
    have := val_lt (a.take n)
    rwa [List.length_take, min_eq_left h] at this
  · rw [List.take_of_length_le (by omega), Nat.mod_eq_of_lt]
    exact (val_lt a).trans_le (Nat.pow_le_pow_right (by omega) (by omega))

theorem val_drop (n : Nat) (a : List Bool) : val (a.drop n) = val a / 2 ^ n := by
  by_cases h : n ≤ a.length
  · rw [val_take_add n a h]
    have := val_lt (a.take n)
    rw [List.length_take, min_eq_left h] at this
    rw [Nat.add_mul_div_left _ _ (Nat.two_pow_pos _), Nat.div_eq_of_lt this]; simp
  · rw [List.drop_of_length_le (by omega), Nat.div_eq_of_lt]; · rfl
    exact (val_lt a).trans_le (Nat.pow_le_pow_right (by omega) (by omega))

theorem val_replicate_false (n : Nat) : val (List.replicate n false) = 0 := by
  induction n with
  | zero => rfl
  | succ n ih => simp [List.replicate_succ, val, ih]

theorem val_inj {a b : List Bool} (hl : a.length = b.length) (h : val a = val b) : a = b := by
  induction a generalizing b with
  | nil => cases b <;> simp_all
  | cons x a ih =>
    cases b with
    | nil => simp at hl
    | cons y b =>
      simp only [val] at h
      have := Bool.toNat_lt x
      have := Bool.toNat_lt y
      have e : x.toNat = y.toNat := by omega
      have e' : x = y := by cases x <;> cases y <;> simp_all
      rw [e', ih (by simpa using hl) (by omega)]

theorem length_uintToBits (v n : Nat) : (uintToBits v n).length = n := by
  induction n generalizing v with
  | zero => rfl
  | succ n ih => simp [uintToBits, ih]

theorem val_uintToBits (v n : Nat) : val (uintToBits v n) = v % 2 ^ n := by
  induction n generalizing v with
  | zero => simp [uintToBits, val, Nat.mod_one]
  | succ n ih =>
    simp only [uintToBits, val, ih, pow_succ]
    rw [Nat.mul_comm (2 ^ n) 2, Nat.mod_mul]
    have : ((v % 2 == 1) : Bool).toNat = v % 2 := by
      rcases Nat.mod_two_eq_zero_or_one v with h | h <;> simp [h]
    rw [this]

theorem uintToBits_val (l : List Bool) : uintToBits (val l) l.length = l :=
  val_inj (length_uintToBits _ _) (by rw [val_uintToBits, Nat.mod_eq_of_lt (val_lt l)])

theorem wval_zip_add (xs ys : List Bool) (h : xs.length = ys.length) :
    wval ((xs.zip ys).map fun p => p.1.toNat + p.2.toNat) = val xs + val ys := by
  induction xs generalizing ys with
  | nil => cases ys <;> simp_all [wval, val]
  | cons x xs ih =>
    cases ys with
    | nil => simp at h
    | cons y ys =>
      simp only [List.zip_cons_cons, List.map_cons, wval, val, ih ys (by simpa using h)]
      ring

theorem wval_not (ys : List Bool) :
    wval (ys.map fun y => (!y).toNat) + val ys + 1 = 2 ^ ys.length := by
  induction ys with
  | nil => simp [wval, val]
  | cons y ys ih =>
    simp only [List.map_cons, wval, val, List.length_cons, pow_succ]
    cases y <;> simp <;> omega

theorem wval_zip_sub (xs ys : List Bool) (h : xs.length = ys.length) :
    wval ((xs.zip ys).map fun p => p.1.toNat + (!p.2).toNat) + val ys + 1 = val xs + 2 ^ xs.length := by
  induction xs generalizing ys with
  | nil => cases ys <;> simp_all [wval, val]
  | cons x xs ih =>
    cases ys with
    | nil => simp at h
    | cons y ys =>
      have := ih ys (by simpa using h)
      simp only [List.zip_cons_cons, List.map_cons, wval, val, List.length_cons, pow_succ]
      cases y <;> simp <;> omega

theorem wval_toNat (ys : List Bool) : wval (ys.map fun y => y.toNat) = val ys := by
  induction ys with
  | nil => rfl
  | cons y ys ih => simp only [List.map_cons, wval, val, ih]

theorem take_zip {α β : Type} (as : List α) (bs : List β) (n : Nat) :
    (as.zip bs).take n = (as.take n).zip (bs.take n) := by
  induction n generalizing as bs with
  | zero => simp
  | succ n ih => cases as <;> cases bs <;> simp [ih]

theorem drop_zip {α β : Type} (as : List α) (bs : List β) (n : Nat) :
    (as.zip bs).drop n = (as.drop n).zip (bs.drop n) := by
  induction n generalizing as bs with
  | zero => simp
  | succ n ih => cases as <;> cases bs <;> simp [ih]

theorem zip_take_len {α β : Type} (as : List α) (bs : List β) :
    as.zip (bs.take as.length) = as.zip bs := by
  induction as generalizing bs with
  | nil => simp
  | cons a as ih => cases bs <;> simp [ih]

/-! ### Gates -/

section

variable {I J : Type} {E : I → J → Bool → Prop}

theorem spec_fullAdderConst {a a' x c c' z} (b : Bool) (ha : E a a' x) (hc : E c c' z) :
    CSpec E (fun r r' => ∃ s y, E r.1 r'.1 s ∧ E r.2 r'.2 y ∧
        s.toNat + 2 * y.toNat = (x.toNat + b.toNat) + z.toNat)
      (Circ.fullAdderConst a b c) (Circ.fullAdderConst a' b c') := by
  cases b
  · refine (CSpec.gXor ha hc).bind fun s s' hs => ?_
    refine (CSpec.gAnd ha hs).bind fun z4 z4' h4 => ?_
    refine (CSpec.gXor h4 ha).bind fun d d' hd => ?_
    refine CSpec.pure ⟨_, _, hs, hd, ?_⟩
    cases x <;> cases z <;> rfl
  · refine (CSpec.gNot ha).bind fun z1 z1' h1 => ?_
    refine (CSpec.gXor h1 hc).bind fun s s' hs => ?_
    refine (CSpec.gXor ha hc).bind fun z3 z3' h3 => ?_
    refine (CSpec.gAnd h1 h3).bind fun z4 z4' h4 => ?_
    refine (CSpec.gXor h4 ha).bind fun d d' hd => ?_
    refine CSpec.pure ⟨_, _, hs, hd, ?_⟩
    cases x <;> cases z <;> rfl

theorem spec_halfAdder {a a' x b b' y} (ha : E a a' x) (hb : E b b' y) :
    CSpec E (fun r r' => ∃ s t, E r.1 r'.1 s ∧ E r.2 r'.2 t ∧ s.toNat + 2 * t.toNat = x.toNat + y.toNat)
      (Circ.halfAdder a b) (Circ.halfAdder a' b') := by
  refine (CSpec.gXor ha hb).bind fun s s' hs => ?_
  refine (CSpec.gAnd ha hb).bind fun c c' hc => ?_
  refine CSpec.pure ⟨_, _, hs, hc, ?_⟩
  cases x <;> cases y <;> rfl

/-- The constant half adder returns the sum, but its carry is the input wire. -/
theorem spec_halfAdderConst {a a' x} (b : Bool) (ha : E a a' x) :
    CSpec E (fun r r' => E r.1 r'.1 (x ^^ b) ∧ E r.2 r'.2 x)
      (Circ.halfAdderConst a b) (Circ.halfAdderConst a' b) := by
  cases b
  · refine CSpec.pure ⟨?_, ha⟩
    simpa using ha
  · refine (CSpec.gNot ha).bind fun s s' hs => ?_
    refine CSpec.pure ⟨?_, ha⟩
    simpa using hs

theorem spec_fullAdderCarry {a a' x b b' y c c' z} (ha : E a a' x) (hb : E b b' y) (hc : E c c' z) :
    CSpec E (fun r r' => ∃ (s t : Bool), E r r' t ∧ s.toNat + 2 * t.toNat = (x.toNat + y.toNat) + z.toNat)
      (Circ.fullAdderCarry a b c) (Circ.fullAdderCarry a' b' c') := by
  refine (CSpec.gXor ha hb).bind fun z1 z1' h1 => ?_
  refine (CSpec.gXor ha hc).bind fun z3 z3' h3 => ?_
  refine (CSpec.gAnd h1 h3).bind fun z4 z4' h4 => ?_
  refine (CSpec.gXor h4 ha).mono fun d d' hd => ⟨x ^^ y ^^ z, _, hd, ?_⟩
  cases x <;> cases y <;> cases z <;> rfl

theorem spec_fullAdder {a a' x b b' y c c' z} (ha : E a a' x) (hb : E b b' y) (hc : E c c' z) :
    CSpec E (fun r r' => ∃ s t, E r.1 r'.1 s ∧ E r.2 r'.2 t ∧
        s.toNat + 2 * t.toNat = (x.toNat + y.toNat) + z.toNat)
      (Circ.fullAdder a b c) (Circ.fullAdder a' b' c') := by
  refine (CSpec.gXor ha hb).bind fun z1 z1' h1 => ?_
  refine (CSpec.gXor h1 hc).bind fun s s' hs => ?_
  refine (CSpec.gXor ha hc).bind fun z3 z3' h3 => ?_
  refine (CSpec.gAnd h1 h3).bind fun z4 z4' h4 => ?_
  refine (CSpec.gXor h4 ha).bind fun d d' hd => ?_
  refine CSpec.pure ⟨_, _, hs, hd, ?_⟩
  cases x <;> cases y <;> cases z <;> rfl

theorem spec_fullAdderCinSet {a a' x b b' y} (ha : E a a' x) (hb : E b b' y) :
    CSpec E (fun r r' => ∃ s t, E r.1 r'.1 s ∧ E r.2 r'.2 t ∧
        s.toNat + 2 * t.toNat = (x.toNat + y.toNat) + 1)
      (Circ.fullAdderCinSet a b) (Circ.fullAdderCinSet a' b') := by
  refine (CSpec.gXor ha hb).bind fun z1 z1' h1 => ?_
  refine (CSpec.gNot h1).bind fun s s' hs => ?_
  refine (CSpec.gNot ha).bind fun z3 z3' h3 => ?_
  refine (CSpec.gAnd h1 h3).bind fun z4 z4' h4 => ?_
  refine (CSpec.gXor h4 ha).bind fun d d' hd => ?_
  refine CSpec.pure ⟨_, _, hs, hd, ?_⟩
  cases x <;> cases y <;> rfl

theorem spec_fullAdderConstCinSet {a a' x} (b : Bool) (ha : E a a' x) :
    CSpec E (fun r r' => ∃ s t, E r.1 r'.1 s ∧ E r.2 r'.2 t ∧
        s.toNat + 2 * t.toNat = (x.toNat + b.toNat) + 1)
      (Circ.fullAdderConstCinSet a b) (Circ.fullAdderConstCinSet a' b) := by
  cases b
  · refine (CSpec.gNot ha).bind fun s s' hs => ?_
    refine CSpec.pure ⟨_, _, hs, ha, ?_⟩
    cases x <;> rfl
  · refine CSpec.constOne.bind fun s s' hs => ?_
    refine CSpec.pure ⟨_, _, ha, hs, ?_⟩
    cases x <;> rfl

theorem spec_fullAdderCarryCinSet {a a' x b b' y} (ha : E a a' x) (hb : E b b' y) :
    CSpec E (fun r r' => ∃ (s t : Bool), E r r' t ∧ s.toNat + 2 * t.toNat = (x.toNat + y.toNat) + 1)
      (Circ.fullAdderCarryCinSet a b) (Circ.fullAdderCarryCinSet a' b') := by
  refine (CSpec.gXor ha hb).bind fun z1 z1' h1 => ?_
  refine (CSpec.gNot ha).bind fun z3 z3' h3 => ?_
  refine (CSpec.gAnd h1 h3).bind fun z4 z4' h4 => ?_
  refine (CSpec.gXor h4 ha).mono fun d d' hd => ⟨!(x ^^ y), _, hd, ?_⟩
  cases x <;> cases y <;> rfl

/-! ### Loops -/

theorem spec_addPairs {xs xs' ps ys ys' qs c c' z} (hx : All3 E xs xs' ps) (hy : All3 E ys ys' qs)
    (hl : ps.length = qs.length) (hc : E c c' z) :
    CSpec E (fun r r' => ∃ ss y, All3 E r.1 r'.1 ss ∧ E r.2 r'.2 y ∧ ss.length = ps.length ∧
        val ss + 2 ^ ps.length * y.toNat = val ps + val qs + z.toNat)
      (Circ.addPairs c (xs.zip ys)) (Circ.addPairs c' (xs'.zip ys')) := by
  refine (CSpec.scan (S := E) (w := fun p : Bool × Bool => p.1.toNat + p.2.toNat)
    (fun c c' x a b n hc h => spec_fullAdder h.1 h.2 hc) (hx.zip hy) hc).mono ?_
  rintro r r' ⟨ss, y, hs, hy, hl', e⟩
  refine ⟨ss, y, hs, hy, ?_, ?_⟩
  · rw [hl', List.length_zip, hl, min_self]
  · rw [wval_zip_add ps qs hl, List.length_zip, hl, min_self] at e
    rw [hl]; exact e

theorem spec_addZeros {ys ys' qs c c' z} (hy : All3 E ys ys' qs) (hc : E c c' z) :
    CSpec E (fun r r' => ∃ ss y, All3 E r.1 r'.1 ss ∧ E r.2 r'.2 y ∧ ss.length = qs.length ∧
        val ss + 2 ^ qs.length * y.toNat = val qs + z.toNat)
      (Circ.addZeros c ys) (Circ.addZeros c' ys') := by
  refine (CSpec.scan (S := E) (w := fun p : Bool => p.toNat) (fun c c' x a b n hc h => ?_) hy hc).mono ?_
  · refine (spec_fullAdderConst false h hc).mono ?_
    rintro r r' ⟨s, y, hs, hy, e⟩
    exact ⟨s, y, hs, hy, by simpa using e⟩
  rintro r r' ⟨ss, y, hs, hy, hl, e⟩
  exact ⟨ss, y, hs, hy, hl, by rw [wval_toNat] at e; exact e⟩

/-- The addition of wires: `xs` may be shorter than `ys`. -/
theorem spec_binAddition {xs xs' ps ys ys' qs} (hx : All3 E xs xs' ps) (hy : All3 E ys ys' qs)
    (hl : ps.length ≤ qs.length) (hp : ps ≠ []) :
    CSpec E (fun r r' => ∃ ss y, All3 E r.1 r'.1 ss ∧ E r.2 r'.2 y ∧ ss.length = ps.length ∧
        val ss + 2 ^ ps.length * y.toNat = val ps + val (qs.take ps.length))
      (Circ.binAddition xs ys) (Circ.binAddition xs' ys') := by
  cases hx with
  | nil => exact absurd rfl hp
  | @cons _ _ p _ _ ps h hx =>
    cases hy with
    | nil => simp at hl
    | @cons _ _ q _ _ qs h' hy =>
      refine (spec_halfAdder h h').bind ?_
      rintro ⟨s, c⟩ ⟨s', c'⟩ ⟨t, u, ht, hu, e⟩
      have := spec_addPairs hx (hy.take ps.length) (by simp at hl ⊢; omega) hu
      rw [← hx.len, zip_take_len, hx.len, ← hx.len', zip_take_len, hx.len'] at this
      refine this.bind ?_
      rintro ⟨ss, c⟩ ⟨ss', c'⟩ ⟨ts, v, hts, hv, hlen, e'⟩
      refine CSpec.pure ⟨t :: ts, v, .cons ht hts, hv, by simp [hlen], ?_⟩
      simp only [val, List.length_cons, List.take_succ_cons, pow_succ]
      linarith

theorem spec_binAddition' {xs xs' ps ys ys' qs} (hx : All3 E xs xs' ps) (hy : All3 E ys ys' qs)
    (hl : ps.length = qs.length) (hp : ps ≠ []) :
    CSpec E (fun r r' => ∃ ss y, All3 E r.1 r'.1 ss ∧ E r.2 r'.2 y ∧ ss.length = ps.length ∧
        val ss + 2 ^ ps.length * y.toNat = val ps + val qs)
      (Circ.binAddition xs ys) (Circ.binAddition xs' ys') := by
  have := spec_binAddition hx hy hl.le hp
  rwa [List.take_of_length_le hl.ge] at this

/-- The last sum bit without its carry. -/
theorem val_snoc_mod {ss : List Bool} {n X P : Nat} {c l : Bool} (hl : ss.length = n) (w : Nat)
    (e : val ss + 2 ^ n * c.toNat = P) (hX : X = P + 2 ^ n * w) (hw : (l.toNat) % 2 = (w + c.toNat) % 2) :
    val (ss ++ [l]) = X % 2 ^ (n + 1) := by
  rw [val_append, hl, hX, ← e]
  simp only [val, pow_succ]
  have h1 := val_lt ss
  rw [hl] at h1
  have : val ss + 2 ^ n * c.toNat + 2 ^ n * w = val ss + 2 ^ n * (w + c.toNat) := by ring
  rw [this, Nat.mod_mul, Nat.add_mul_mod_self_left, Nat.mod_eq_of_lt h1,
    Nat.add_mul_div_left _ _ (Nat.two_pow_pos _), Nat.div_eq_of_lt h1, zero_add, ← hw]
  cases l <;> simp

theorem spec_binAdditionNoCarry {xs xs' ps ys ys' qs} (hx : All3 E xs xs' ps) (hy : All3 E ys ys' qs)
    (hl : ps.length = qs.length) (hp : ps ≠ []) :
    CSpec E (fun r r' => ∃ ss, All3 E r r' ss ∧ ss.length = ps.length ∧
        val ss = (val ps + val qs) % 2 ^ ps.length)
      (Circ.binAdditionNoCarry xs ys) (Circ.binAdditionNoCarry xs' ys') := by
  cases hx with
  | nil => exact absurd rfl hp
  | @cons x x' p xs xs' ps h hx =>
    cases hy with
    | nil => simp at hl
    | @cons y y' q ys ys' qs h' hy =>
      cases hx with
      | nil =>
        have : qs = [] := by simpa using hl.symm
        subst this
        cases hy
        refine (CSpec.gXor h h').bind fun s s' hs => ?_
        refine CSpec.pure ⟨[p ^^ q], .cons hs .nil, rfl, ?_⟩
        cases p <;> cases q <;> rfl
      | @cons x₂ x₂' p₂ xs xs' ps h₂ hx =>
        cases hy with
        | nil => simp at hl
        | @cons y₂ y₂' q₂ ys ys' qs h₂' hy =>
          refine (spec_halfAdder h h').bind ?_
          rintro ⟨s, c⟩ ⟨s', c'⟩ ⟨t, u, ht, hu, e⟩
          have hX : All3 E (x₂ :: xs) (x₂' :: xs') (p₂ :: ps) := .cons h₂ hx
          have hY : All3 E (y₂ :: ys) (y₂' :: ys') (q₂ :: qs) := .cons h₂' hy
          have := spec_addPairs (hX.take ps.length) (hY.take ps.length) (by simp at hl ⊢; omega) hu
          simp only [List.length_cons, Nat.add_sub_cancel]
          rw [← take_zip, ← take_zip] at this
          rw [hx.len, hx.len']
          refine this.bind ?_
          rintro ⟨ss, c⟩ ⟨ss', c'⟩ ⟨ts, v, hts, hv, hlen, e'⟩
          refine (CSpec.gXor ((All3.cons h hX).getLast (by simp) (by simp) (by simp))
            ((All3.cons h' hY).getLast (by simp) (by simp) (by simp))).bind fun z1 z1' hz1 => ?_
          refine (CSpec.gXor hz1 hv).bind fun l l' hl' => ?_
          refine CSpec.pure ⟨(t :: ts) ++ [_], (All3.cons ht hts).append (.cons hl' .nil), ?_, ?_⟩
          · simp [hlen]
          simp only [List.length_take, List.length_cons] at hlen e' e hl
          have hmin : min ps.length (ps.length + 1) = ps.length := by omega
          rw [hmin] at e' hlen
          have dec : ∀ (b : Bool) (bs : List Bool), b :: bs = (b :: bs).take bs.length ++
              [(b :: bs).getLast (by simp)] := fun b bs => by
            conv_lhs => rw [← List.dropLast_append_getLast (l := b :: bs) (by simp)]
            rw [List.dropLast_eq_take]; simp
          have dv : ∀ (b : Bool) (bs : List Bool), val (b :: bs) = val ((b :: bs).take bs.length) +
              2 ^ bs.length * ((b :: bs).getLast (by simp)).toNat := fun b bs => by
            conv_lhs => rw [dec b bs, val_append]
            simp [val]
          have hql : qs.length = ps.length := by omega
          have e1 := dv p₂ ps
          have e2 := dv q₂ qs
          rw [hql] at e2
          refine val_snoc_mod (c := v) (n := ps.length + 1) (by simp [hlen])
            (((p₂ :: ps).getLast (by simp)).toNat + ((q₂ :: qs).getLast (by simp)).toNat)
            (P := p.toNat + q.toNat + 2 * (val ((p₂ :: ps).take ps.length) +
              val ((q₂ :: qs).take ps.length))) ?_ ?_ ?_
          · simp only [val, pow_succ]; linarith
          · show p.toNat + 2 * val (p₂ :: ps) + (q.toNat + 2 * val (q₂ :: qs)) = _
            rw [e1, e2, pow_succ]; ring
          · rw [List.getLast_cons_cons, List.getLast_cons_cons]
            generalize (p₂ :: ps).getLast _ = a
            generalize (q₂ :: qs).getLast _ = b
            cases a <;> cases b <;> cases v <;> rfl

/-! ### Subtraction -/

theorem spec_subPairs {xs xs' ps ys ys' qs c c' z} (hx : All3 E xs xs' ps) (hy : All3 E ys ys' qs)
    (hl : ps.length = qs.length) (hc : E c c' z) :
    CSpec E (fun r r' => ∃ ss y, All3 E r.1 r'.1 ss ∧ E r.2 r'.2 y ∧ ss.length = ps.length ∧
        val ss + 2 ^ ps.length * y.toNat + val qs + 1 = val ps + 2 ^ ps.length + z.toNat)
      (Circ.subPairs c (xs.zip ys)) (Circ.subPairs c' (xs'.zip ys')) := by
  refine (CSpec.scan (S := E) (w := fun p : Bool × Bool => p.1.toNat + (!p.2).toNat)
    (fun c c' x a b n hc h => ?_) (hx.zip hy) hc).mono ?_
  · refine (CSpec.gNot h.2).bind fun y y' hy => ?_
    exact spec_fullAdder h.1 hy hc
  rintro r r' ⟨ss, y, hs, hy, hl', e⟩
  have := wval_zip_sub ps qs hl
  rw [List.length_zip, hl, min_self] at hl' e
  exact ⟨ss, y, hs, hy, hl'.trans hl.symm, by rw [hl] at this ⊢; linarith⟩

theorem spec_subFromZeros {ys ys' qs c c' z} (hy : All3 E ys ys' qs) (hc : E c c' z) :
    CSpec E (fun r r' => ∃ ss y, All3 E r.1 r'.1 ss ∧ E r.2 r'.2 y ∧ ss.length = qs.length ∧
        val ss + 2 ^ qs.length * y.toNat + val qs + 1 = 2 ^ qs.length + z.toNat)
      (Circ.subFromZeros c ys) (Circ.subFromZeros c' ys') := by
  refine (CSpec.scan (S := E) (w := fun p : Bool => (!p).toNat)
    (fun c c' x a b n hc h => ?_) hy hc).mono ?_
  · refine (CSpec.gNot h).bind fun y y' hy => ?_
    refine (CSpec.gXor hy hc).bind fun s s' hs => ?_
    refine (CSpec.gAnd hy hc).bind fun d d' hd => ?_
    refine CSpec.pure ⟨_, _, hs, hd, ?_⟩
    cases n <;> cases x <;> rfl
  rintro r r' ⟨ss, y, hs, hy, hl', e⟩
  have := wval_not qs
  exact ⟨ss, y, hs, hy, hl', by linarith⟩

/-- What a subtraction returns: the difference modulo `2^n`, and whether there was no borrow. -/
def SubSpec (E : I → J → Bool → Prop) (x : Nat) (qs : List Bool) (r : List I × I) (r' : List J × J) : Prop :=
  ∃ ss y, All3 E r.1 r'.1 ss ∧ E r.2 r'.2 y ∧ ss.length = qs.length ∧
    val ss + 2 ^ qs.length * y.toNat + val qs = x + 2 ^ qs.length

theorem SubSpec.carry {x : Nat} {qs ss : List Bool} {y : Bool} (hl : ss.length = qs.length)
    (e : val ss + 2 ^ qs.length * y.toNat + val qs = x + 2 ^ qs.length) (hx : x < 2 ^ qs.length) :
    y = decide (val qs ≤ x) ∧ (val qs ≤ x → val ss = x - val qs) := by
  have h1 := val_lt ss
  have h2 := val_lt qs
  rw [hl] at h1
  cases y
  · simp at e ⊢; omega
  · simp at e ⊢; omega

theorem spec_binSubtraction {xs xs' ps ys ys' qs} (hx : All3 E xs xs' ps) (hy : All3 E ys ys' qs)
    (hl : ps.length = qs.length) (hp : ps ≠ []) :
    CSpec E (SubSpec E (val ps) qs) (Circ.binSubtraction xs ys) (Circ.binSubtraction xs' ys') := by
  cases hx with
  | nil => exact absurd rfl hp
  | @cons _ _ p _ _ ps h hx =>
    cases hy with
    | nil => simp at hl
    | @cons _ _ q _ _ qs h' hy =>
      refine (CSpec.gNot h').bind fun y y' hn => ?_
      refine (spec_fullAdderCinSet h hn).bind ?_
      rintro ⟨s, c⟩ ⟨s', c'⟩ ⟨t, u, ht, hu, e⟩
      refine (spec_subPairs hx hy (by simpa using hl) hu).bind ?_
      rintro ⟨ss, c⟩ ⟨ss', c'⟩ ⟨ts, v, hts, hv, hlen, e'⟩
      have hl' : ps.length = qs.length := by simpa using hl
      refine CSpec.pure ⟨t :: ts, v, .cons ht hts, hv, by simp [hlen, hl'], ?_⟩
      simp only [val, List.length_cons, pow_succ]
      rw [hl'] at e'
      have : (!q).toNat + q.toNat = 1 := by cases q <;> rfl
      linarith

theorem spec_binSubtractionPartial {xs xs' ps ys ys' qs} (hx : All3 E xs xs' ps) (hy : All3 E ys ys' qs)
    (hl : ps.length ≤ qs.length) (hp : ps ≠ []) :
    CSpec E (SubSpec E (val ps) qs) (Circ.binSubtractionPartial xs ys)
      (Circ.binSubtractionPartial xs' ys') := by
  cases hx with
  | nil => exact absurd rfl hp
  | @cons _ _ p _ _ ps h hx =>
    cases hy with
    | nil => simp at hl
    | @cons _ _ q _ _ qs h' hy =>
      have hl' : ps.length ≤ qs.length := by simpa using hl
      refine (CSpec.gNot h').bind fun y y' hn => ?_
      refine (spec_fullAdderCinSet h hn).bind ?_
      rintro ⟨s, c⟩ ⟨s', c'⟩ ⟨t, u, ht, hu, e⟩
      rw [hx.len, hx.len']
      refine (spec_subPairs hx (hy.take ps.length) (by simp; omega) hu).bind ?_
      rintro ⟨ss, c⟩ ⟨ss', c'⟩ ⟨ts, v, hts, hv, hlen, e'⟩
      simp only
      rw [if_neg (by rw [hy.len]; omega), if_neg (by rw [hy.len']; omega)]
      refine (spec_subFromZeros (hy.drop ps.length) hv).bind ?_
      rintro ⟨ss₂, c⟩ ⟨ss₂', c'⟩ ⟨ts₂, v₂, hts₂, hv₂, hlen₂, e₂⟩
      refine CSpec.pure ⟨t :: (ts ++ ts₂), v₂, .cons ht (hts.append hts₂), hv₂, ?_, ?_⟩
      · simp [hlen, hlen₂]; omega
      simp only [List.length_drop] at hlen₂ e₂
      have h3 := val_take_add ps.length qs hl'
      obtain ⟨d, hd⟩ := Nat.exists_eq_add_of_le hl'
      have hd' : qs.length - ps.length = d := by omega
      rw [hd'] at hlen₂ e₂
      simp only [val, List.length_cons, pow_succ, val_append, hlen]
      rw [h3, hd, pow_add]
      have : (!q).toNat + q.toNat = 1 := by cases q <;> rfl
      have e₃ := congrArg (2 ^ ps.length * ·) e₂
      simp only [Nat.mul_add] at e₃
      linarith

theorem spec_binSubtractionPartialByConstant {xs : List I} {xs' : List J} {ps} (qs : List Bool)
    (hx : All3 E xs xs' ps)
    (hl : ps.length ≤ qs.length) (hp : ps ≠ []) :
    CSpec E (SubSpec E (val ps) qs) (Circ.binSubtractionPartialByConstant xs qs)
      (Circ.binSubtractionPartialByConstant xs' qs) := by
  cases hx with
  | nil => exact absurd rfl hp
  | @cons _ _ p _ _ ps h hx =>
    cases qs with
    | nil => simp at hl
    | cons q qs =>
      have hl' : ps.length ≤ qs.length := by simpa using hl
      refine (spec_fullAdderConstCinSet (!q) h).bind ?_
      rintro ⟨s, c⟩ ⟨s', c'⟩ ⟨t, u, ht, hu, e⟩
      rw [hx.len, hx.len']
      refine (CSpec.scan (S := E) (C := E) (w := fun p : Bool × Bool => p.1.toNat + (!p.2).toNat)
        (fun c c' x a b n hc h => ?_) (hx.zip (All3.refl (l := qs.take ps.length))) hu).bind ?_
      · obtain ⟨h1, h2, h3⟩ := h
        rw [h2, h3]
        exact spec_fullAdderConst _ h1 hc
      rintro ⟨ss, c⟩ ⟨ss', c'⟩ ⟨ts, v, hts, hv, hlen, e'⟩
      simp only
      rw [if_neg (by omega), if_neg (by omega)]
      refine (CSpec.scan (S := E) (C := E) (w := fun p : Bool => (!p).toNat)
        (fun c c' x a b n hc h => ?_) (All3.refl (l := qs.drop ps.length)) hv).bind ?_
      · obtain ⟨rfl, rfl⟩ := h
        cases b
        · refine (CSpec.gNot hc).bind fun s s' hs => ?_
          refine CSpec.pure ⟨_, _, hs, hc, ?_⟩
          cases x <;> rfl
        · refine CSpec.constZero.bind fun s s' hs => ?_
          refine CSpec.pure ⟨_, _, hc, hs, ?_⟩
          cases x <;> rfl
      rintro ⟨ss₂, c⟩ ⟨ss₂', c'⟩ ⟨ts₂, v₂, hts₂, hv₂, hlen₂, e₂⟩
      refine CSpec.pure ⟨t :: (ts ++ ts₂), v₂, .cons ht (hts.append hts₂), hv₂, ?_, ?_⟩
      · simp at hlen hlen₂; simp [hlen, hlen₂]; omega
      have w1 := wval_zip_sub ps (qs.take ps.length) (by simp; omega)
      have w2 := wval_not (qs.drop ps.length)
      simp only [List.length_drop] at hlen₂ e₂ w2
      have hm : min ps.length (qs.take ps.length).length = ps.length := by simp; omega
      rw [List.length_zip, hm] at hlen e'
      have h3 := val_take_add ps.length qs hl'
      obtain ⟨d, hd⟩ := Nat.exists_eq_add_of_le hl'
      have hd' : qs.length - ps.length = d := by omega
      rw [hd'] at hlen₂ e₂ w2
      simp only [val, List.length_cons, pow_succ, val_append, hlen]
      rw [h3, hd, pow_add]
      have : (!q).toNat + q.toNat = 1 := by cases q <;> rfl
      have e₃ := congrArg (2 ^ ps.length * ·) e₂
      have e₄ := congrArg (2 ^ ps.length * ·) w2
      simp only [Nat.mul_add] at e₃ e₄
      linarith

theorem spec_binSubtractionPartialFromConstant {ys : List I} {ys' : List J} {qs} (ps : List Bool)
    (hy : All3 E ys ys' qs)
    (hl : ps.length ≤ qs.length) (hp : ps ≠ []) :
    CSpec E (SubSpec E (val ps) qs) (Circ.binSubtractionPartialFromConstant ps ys)
      (Circ.binSubtractionPartialFromConstant ps ys') := by
  cases ps with
  | nil => exact absurd rfl hp
  | cons p ps =>
    cases hy with
    | nil => simp at hl
    | @cons _ _ q _ _ qs h' hy =>
      have hl' : ps.length ≤ qs.length := by simpa using hl
      refine (CSpec.gNot h').bind fun y y' hn => ?_
      refine (spec_fullAdderConstCinSet p hn).bind ?_
      rintro ⟨s, c⟩ ⟨s', c'⟩ ⟨t, u, ht, hu, e⟩
      refine (CSpec.scan (S := E) (C := E) (w := fun p : Bool × Bool => p.1.toNat + (!p.2).toNat)
        (fun c c' x a b n hc h => ?_) ((All3.refl (l := ps)).zip (hy.take ps.length)) hu).bind ?_
      · obtain ⟨⟨h2, h3⟩, h1⟩ := h
        rw [h2, h3]
        refine (CSpec.gNot h1).bind fun y y' hn => ?_
        refine (spec_fullAdderConst _ hn hc).mono ?_
        rintro r r' ⟨s, y, hs, hy, e⟩
        exact ⟨s, y, hs, hy, by omega⟩
      rintro ⟨ss, c⟩ ⟨ss', c'⟩ ⟨ts, v, hts, hv, hlen, e'⟩
      simp only
      have w1 := wval_zip_sub ps (qs.take ps.length) (by simp; omega)
      have hm : min ps.length (qs.take ps.length).length = ps.length := by simp; omega
      rw [List.length_zip, hm] at hlen e'
      have : (!q).toNat + q.toNat = 1 := by cases q <;> rfl
      rcases Nat.lt_or_ge ps.length qs.length with hlt | hge
      · rw [if_pos (by rw [hy.len]; omega), if_pos (by rw [hy.len']; omega)]
        refine (spec_subFromZeros (hy.drop ps.length) hv).bind ?_
        rintro ⟨ss₂, c⟩ ⟨ss₂', c'⟩ ⟨ts₂, v₂, hts₂, hv₂, hlen₂, e₂⟩
        refine CSpec.pure ⟨t :: (ts ++ ts₂), v₂, .cons ht (hts.append hts₂), hv₂, ?_, ?_⟩
        · simp [hlen, hlen₂]; omega
        simp only [List.length_drop] at hlen₂ e₂
        have h3 := val_take_add ps.length qs hl'
        obtain ⟨d, hd⟩ := Nat.exists_eq_add_of_le hl'
        have hd' : qs.length - ps.length = d := by omega
        rw [hd'] at hlen₂ e₂
        simp only [val, List.length_cons, pow_succ, val_append, hlen]
        rw [h3, hd, pow_add]
        have e₃ := congrArg (2 ^ ps.length * ·) e₂
        simp only [Nat.mul_add] at e₃
        linarith
      · rw [if_neg (by rw [hy.len]; omega), if_neg (by rw [hy.len']; omega)]
        have heq : ps.length = qs.length := by omega
        rw [heq, List.take_length] at w1
        refine CSpec.pure ⟨t :: ts, v, .cons ht hts, hv, by simp [hlen, heq], ?_⟩
        simp only [val, List.length_cons, pow_succ]
        rw [heq, List.take_length] at e'
        linarith

theorem spec_foldCarry {xs xs' ps ys ys' qs c c' z} (hx : All3 E xs xs' ps) (hy : All3 E ys ys' qs)
    (hl : ps.length = qs.length) (hc : E c c' z) :
    CSpec E (fun r r' => ∃ (ss : List Bool) (y : Bool), E r r' y ∧ ss.length = ps.length ∧
        val ss + 2 ^ ps.length * y.toNat + val qs + 1 = val ps + 2 ^ ps.length + z.toNat)
      ((xs.zip ys).foldlM (fun c xy => do
        let y ← Circ.gNot xy.2
        Circ.fullAdderCarry xy.1 y c) c)
      ((xs'.zip ys').foldlM (fun c xy => do
        let y ← Circ.gNot xy.2
        Circ.fullAdderCarry xy.1 y c) c') := by
  induction hx generalizing ys ys' qs c c' z with
  | nil =>
    cases qs with
    | cons => simp at hl
    | nil =>
      cases hy
      exact CSpec.pure ⟨[], z, hc, rfl, by simp [val]; ring⟩
  | @cons _ _ p _ _ ps h hx ih =>
    cases hy with
    | nil => simp at hl
    | @cons _ _ q _ _ qs h' hy =>
      simp only [List.zip_cons_cons, List.foldlM_cons]
      refine CSpec.bind (Q := fun r r' => ∃ (s t : Bool), E r r' t ∧
        s.toNat + 2 * t.toNat = (p.toNat + (!q).toNat) + z.toNat) ?_ ?_
      · refine (CSpec.gNot h').bind fun y y' hn => ?_
        exact spec_fullAdderCarry h hn hc
      rintro d d' ⟨s, t, ht, e⟩
      refine (ih hy (by simpa using hl) ht).mono ?_
      rintro r r' ⟨ss, y, hy, hlen, e'⟩
      refine ⟨s :: ss, y, hy, by simp [hlen], ?_⟩
      simp only [val, List.length_cons, pow_succ]
      have : (!q).toNat + q.toNat = 1 := by cases q <;> rfl
      linarith

theorem spec_unsignedGe {xs xs' ps ys ys' qs} (hx : All3 E xs xs' ps) (hy : All3 E ys ys' qs)
    (hl : ps.length = qs.length) (hp : ps ≠ []) :
    CSpec E (fun r r' => E r r' (decide (val qs ≤ val ps))) (Circ.unsignedGe xs ys)
      (Circ.unsignedGe xs' ys') := by
  cases hx with
  | nil => exact absurd rfl hp
  | @cons _ _ p _ _ ps h hx =>
    cases hy with
    | nil => simp at hl
    | @cons _ _ q _ _ qs h' hy =>
      refine (CSpec.gNot h').bind fun y y' hn => ?_
      refine (spec_fullAdderCarryCinSet h hn).bind ?_
      rintro d d' ⟨s, t, ht, e⟩
      refine (spec_foldCarry hx hy (by simpa using hl) ht).mono ?_
      rintro r r' ⟨ss, y, hy, hlen, e'⟩
      have hl' : ps.length = qs.length := by simpa using hl
      have : (!q).toNat + q.toNat = 1 := by cases q <;> rfl
      have e₂ : val (s :: ss) + 2 ^ (q :: qs).length * y.toNat + val (q :: qs) =
          val (p :: ps) + 2 ^ (q :: qs).length := by
        simp only [val, List.length_cons, pow_succ]
        rw [hl'] at e'
        linarith
      have h1 := val_lt (p :: ps)
      rw [hl] at h1
      rw [← (SubSpec.carry (by simp [hlen, hl']) e₂ h1).1]
      exact hy

theorem spec_unsignedLt {xs xs' ps ys ys' qs} (hx : All3 E xs xs' ps) (hy : All3 E ys ys' qs)
    (hl : ps.length = qs.length) (hp : ps ≠ []) :
    CSpec E (fun r r' => E r r' (decide (val ps < val qs))) (Circ.unsignedLt xs ys)
      (Circ.unsignedLt xs' ys') := by
  refine (spec_unsignedGe hx hy hl hp).bind fun g g' hg => ?_
  refine (CSpec.gNot hg).mono fun r r' hr => ?_
  convert hr using 1
  rw [← decide_not, decide_eq_decide]
  omega

theorem spec_unsignedGt {xs xs' ps ys ys' qs} (hx : All3 E xs xs' ps) (hy : All3 E ys ys' qs)
    (hl : ps.length = qs.length) (hp : ps ≠ []) :
    CSpec E (fun r r' => E r r' (decide (val qs < val ps))) (Circ.unsignedGt xs ys)
      (Circ.unsignedGt xs' ys') :=
  spec_unsignedLt hy hx hl.symm (by intro h; rw [h] at hl; exact hp (List.eq_nil_of_length_eq_zero (by simpa using hl)))

theorem spec_unsignedLe {xs xs' ps ys ys' qs} (hx : All3 E xs xs' ps) (hy : All3 E ys ys' qs)
    (hl : ps.length = qs.length) (hp : ps ≠ []) :
    CSpec E (fun r r' => E r r' (decide (val ps ≤ val qs))) (Circ.unsignedLe xs ys)
      (Circ.unsignedLe xs' ys') :=
  spec_unsignedGe hy hx hl.symm (by intro h; rw [h] at hl; exact hp (List.eq_nil_of_length_eq_zero (by simpa using hl)))

end

end Verif.Yao
