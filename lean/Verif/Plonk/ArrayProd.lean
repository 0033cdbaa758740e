import Verif.Plonk.SimLocal
import Verif.Plonk.PermLemmas

/-!
# `array_prod_mul`: prefix products in a constant number of rounds

Models `/repo/co-circom/co-plonk/src/mpc/rep3.rs:189-232`, `/repo/co-circom/co-plonk/src/mpc/shamir.rs:186-229` and
`/repo/co-circom/co-plonk/src/mpc/plain.rs:165-222`, which are the same function of the driver's operations.
-/

namespace Verif.Plonk

variable {ι F A : Type} {c : Type → Type} [Monad c] [Field F] [DecidableEq F] [Zero A] [SMul F A]

/-- `r` and `r_inv`. -/
def randInv (rand : c A) (invVec : List A → c (List A)) (n : Nat) : c (List A × List A) := do
  let r ← (List.range n).mapM fun (_ : Nat) => rand
  let rInv ← invVec r
  pure (r, rInv)

/-- `array_prod_mul`.  `invRand` inverts the random values and `invLast` the result.  The loop over `open` is `prefixProducts`. -/
def arrayProdMul (mulVec : List A → List A → c (List A)) (rand : c A) (invRand invLast : List A → c (List A))
    (mulOpenVec : List A → List A → c (List F)) (inv : Bool) (a1 a2 a3 : List A) : c (List A) := do
  let arr ← mulVec a1 a2
  let arr ← mulVec arr a3
  let r ← randInv rand invRand (arr.length + 1)
  let unblind ← mulVec (List.replicate arr.length (r.2.getD 0 0)) r.1.tail
  let mul ← mulVec (r.1.take arr.length) arr
  let opened ← mulOpenVec mul r.2.tail
  let res := List.zipWith (fun (o : F) (u : A) => o • u) (prefixProducts 1 opened) unblind
  if inv then invLast res else pure res

/-- The blinding cancels. -/
theorem unblind_eq (q : F) (arr rs : List F) (r0 acc : F) (hl : rs.length = arr.length) (h0 : ∀ x ∈ rs, x ≠ 0) :
    List.zipWith (fun o u => o • u)
      (prefixProducts acc (List.zipWith (· * ·) (List.zipWith (· * ·) ((r0 :: rs).take arr.length) arr) (rs.map (·⁻¹))))
      (List.zipWith (· * ·) (List.replicate arr.length q) rs) = prefixProducts (acc * r0 * q) arr := by
  induction arr generalizing rs r0 acc with
  | nil => rfl
  | cons a arr ih =>
    cases rs with
    | nil => simp at hl
    | cons r1 rs =>
      have h1 : r1 ≠ 0 := h0 r1 (by simp)
      have := ih rs r1 (acc * (r0 * a * r1⁻¹)) (by simpa using hl) fun x hx => h0 x (by simp [hx])
      simp only [List.length_cons, List.take_succ_cons, List.zipWith_cons_cons, List.map_cons, prefixProducts,
        List.replicate_succ, smul_eq_mul] at this ⊢
      rw [this]
      have e1 : acc * (r0 * a * r1⁻¹) * (q * r1) = acc * r0 * q * a := by field_simp
      have e2 : acc * (r0 * a * r1⁻¹) * r1 * q = acc * r0 * q * a := by field_simp
      rw [e1, e2]

/-- Rules for code that uses one network. -/
structure Calc (CS : {α : Type} → Nat → (ι → c α) → ((ι → α) → Prop) → Prop) : Prop where
  pure : ∀ {α : Type} {a : ι → α} {Q : (ι → α) → Prop}, Q a → CS 0 (fun i => pure (a i)) Q
  bind : ∀ {α β : Type} {k j : Nat} {q : ι → c α} {f : ι → α → c β} {Q : (ι → α) → Prop} {Q' : (ι → β) → Prop},
    CS k q Q → (∀ a, Q a → CS j (fun i => f i (a i)) Q') → CS (k + j) (fun i => q i >>= f i) Q'
  mono : ∀ {α : Type} {k : Nat} {q : ι → c α} {Q Q' : (ι → α) → Prop}, CS k q Q → (∀ a, Q a → Q' a) → CS k q Q'
  weak : ∀ {α : Type} {k j : Nat} {q : ι → c α} {Q : (ι → α) → Prop}, CS k q Q → k ≤ j → CS j q Q

variable {P : (ι → A) → F → Prop} {CS : {α : Type} → Nat → (ι → c α) → ((ι → α) → Prop) → Prop}

/-- The prefix products, with the cost `a` of a product, `b` of a random value and its inverse, `d` of an inversion and `o` of an
opened product. -/
theorem spec_arrayProdMul (C : Calc CS) (a b d o : Nat) (h0 : P (fun _ => 0) 0) (hsmul : ∀ (x : F) (s : ι → A) (v : F), P s v →
      P (fun i => x • s i) (x • v))
    {mulVec : ι → List A → List A → c (List A)} {rand : ι → c A} {invRand invLast : ι → List A → c (List A)}
    {mulOpenVec : ι → List A → List A → c (List F)}
    (hmul : ∀ {s t : ι → List A} {v u : List F}, Cols P s v → Cols P t u → v.length = u.length →
      CS (a * v.length) (fun i => mulVec i (s i) (t i)) fun r => Cols P r (List.zipWith (· * ·) v u))
    (hrand : ∀ n, CS (b * n) (fun i => randInv (rand i) (invRand i) n) fun r => ∃ v : List F, v.length = n ∧ 0 ∉ v ∧
      Cols P (fun i => (r i).1) v ∧ Cols P (fun i => (r i).2) (v.map (·⁻¹)))
    (hlast : ∀ {s : ι → List A} {v : List F}, Cols P s v → 0 ∉ v →
      CS (d * v.length) (fun i => invLast i (s i)) fun r => Cols P r (v.map (·⁻¹)))
    (hopen : ∀ {s t : ι → List A} {v u : List F}, Cols P s v → Cols P t u → v.length = u.length →
      CS (o * v.length) (fun i => mulOpenVec i (s i) (t i)) fun r => r = fun _ => List.zipWith (· * ·) v u)
    (inv : Bool) {s1 s2 s3 : ι → List A} {x y z res : List F} (h1 : Cols P s1 x) (h2 : Cols P s2 y) (h3 : Cols P s3 z)
    (hxy : x.length = y.length) (hyz : y.length = z.length) (hres : arrayProd inv x y z = .ok res) {k : Nat}
    (hk : a * x.length * 4 + b * (x.length + 1) + o * x.length + (if inv then d * x.length else 0) ≤ k) :
    CS k (fun i => arrayProdMul (mulVec i) (rand i) (invRand i) (invLast i) (mulOpenVec i) inv (s1 i) (s2 i) (s3 i))
      fun r => Cols P r res := by
  unfold arrayProdMul
  generalize hn : x.length = n at *
  refine C.weak (k := a * n + (a * n + (b * (n + 1) + (a * n + (a * n + (o * n + if inv then d * n else 0)))))) ?_
    (by have : a * n * 4 = a * n + a * n + a * n + a * n := by omega
        omega)
  have e1 := hmul h1 h2 (by rw [hn, hxy])
  rw [hn] at e1
  refine C.bind e1 fun p hp => ?_
  have e2 := hmul hp h3 (by simp [hn, ← hxy, ← hyz])
  have l1 : (List.zipWith (· * ·) x y).length = n := by simp [hn, ← hxy]
  rw [l1] at e2
  refine C.bind e2 fun arr harr => ?_
  generalize ha : List.zipWith (· * ·) (List.zipWith (· * ·) x y) z = av at *
  have l2 : av.length = n := by rw [← ha]; simp [hn, ← hxy, ← hyz]
  have l3 : ∀ i, (arr i).length = n := fun i => by rw [harr.length i, l2]
  simp only [l3]
  refine C.bind (hrand (n + 1)) fun r ⟨rv, hl, hnz, hr, hri⟩ => ?_
  cases rv with
  | nil => simp at hl
  | cons r0 rs =>
  have hl' : rs.length = n := by simpa using hl
  have hr0 : r0 ≠ 0 := fun e => hnz (by simp [e])
  have hrs : ∀ x ∈ rs, x ≠ 0 := fun x hx e => hnz (by simp [← e, hx])
  have c0 : P (fun i => (r i).2.getD 0 0) r0⁻¹ := Groth16.Cols.getD hri h0 0
  have c1 : Cols P (fun i => List.replicate n ((r i).2.getD 0 0)) (List.replicate n r0⁻¹) := Cols.replicate n c0
  have c2 : Cols P (fun i => (r i).1.tail) rs := by simpa using hr.drop 1
  have c3 : Cols P (fun i => (r i).2.tail) (rs.map (·⁻¹)) := by simpa using hri.drop 1
  have e3 := hmul c1 c2 (by simp [hl'])
  rw [List.length_replicate] at e3
  refine C.bind e3 fun ub hub => ?_
  have e4 := hmul (hr.take n) harr (by simp [hl', l2])
  rw [show ((r0 :: rs).take n).length = n by simp [hl']] at e4
  refine C.bind e4 fun mu hmu => ?_
  have e5 := hopen hmu c3 (by simp [hl', l2])
  rw [show (List.zipWith (· * ·) ((r0 :: rs).take n) av).length = n by simp [hl', l2]] at e5
  refine C.bind e5 fun op hop => ?_
  subst hop
  have key := unblind_eq r0⁻¹ av rs r0 1 (by rw [hl', l2]) hrs
  rw [l2] at key
  have hfin := Cols.zipWith (W := P) (f := fun _ (o : F) (u : A) => o • u) (g := fun o u => o • u) (Groth16.cols_const (ι := ι) (prefixProducts 1 (List.zipWith (· * ·)
    (List.zipWith (· * ·) ((r0 :: rs).take n) av) (rs.map (·⁻¹))))) hub (by rintro _ o s v rfl hs; exact hsmul o s v hs)
  rw [key, show (1 : F) * r0 * r0⁻¹ = 1 by field_simp] at hfin
  unfold arrayProd at hres
  simp only [ha] at hres
  cases inv with
  | false =>
    simp only [Bool.false_eq_true, if_false] at hres ⊢
    cases hres
    exact C.pure hfin
  | true =>
    simp only [if_true] at hres ⊢
    split_ifs at hres with hz
    cases hres
    have e6 := hlast hfin hz
    rwa [show (prefixProducts 1 av).length = n by rw [prefixProducts_length, l2]] at e6

end Verif.Plonk
