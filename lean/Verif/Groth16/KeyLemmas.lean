import Verif.Groth16.ProveLemmas
import Mathlib.Tactic.LinearCombination
import Mathlib.Tactic.FieldSimp
import Mathlib.Algebra.BigOperators.Field

/-!
# Lemmas: keys, completeness and zero-knowledge
-/

namespace Verif.Groth16

open Polynomial

section Sums

variable {F V : Type} [Field F] [AddCommGroup V] [Module F V]

/-- `∑ zₖ fₖ` over the first `N` variables. -/
def weighted (N : Nat) (f : Nat → F) (z : List F) : F := ∑ k ∈ Finset.range N, z.getD k 0 * f k

theorem combine_range (f : Nat → F) (g : V) {N : Nat} {z : List F} (hz : z.length = N) :
    combine ((List.range N).map fun k => f k • g) z = weighted N f z • g := by
  subst hz
  induction z generalizing f with
  | nil => simp [combine, weighted]
  | cons x z ih =>
    have := ih fun k => f (k + 1)
    simp only [combine, weighted] at this ⊢
    rw [List.length_cons, List.range_succ_eq_map, List.map_cons, List.zipWith_cons_cons, List.sum_cons,
      Finset.sum_range_succ', List.map_map]
    simp only [Function.comp_def, this, List.getD_cons_zero, List.getD_cons_succ, add_smul, mul_smul]
    rw [add_comm]

theorem combine_range_le (f : Nat → F) (g : V) {N : Nat} {z : List F} (hz : N ≤ z.length) :
    combine ((List.range N).map fun k => f k • g) z = weighted N f z • g := by
  have e : combine ((List.range N).map fun k => f k • g) z =
      combine ((List.range N).map fun k => f k • g) (z.take N) := by
    simp only [combine]
    congr 1
    have := List.take_zipWith (f := fun p (s : F) => s • p) (l := (List.range N).map fun k => f k • g) (l' := z)
      (i := N)
    rw [List.take_of_length_le (by simp), List.take_of_length_le (l := (List.range N).map fun k => f k • g)
      (by simp)] at this
    exact this
  rw [e, combine_range f g (by simpa using hz)]
  congr 1
  refine Finset.sum_congr rfl fun k hk => ?_
  rw [List.getD_eq_getElem?_getD, List.getElem?_take, if_pos (Finset.mem_range.1 hk), ← List.getD_eq_getElem?_getD]

theorem weighted_split (n k : Nat) (f : Nat → F) (z : List F) :
    weighted (n + k) f z = weighted n f z + weighted k (fun j => f (n + j)) (z.drop n) := by
  simp only [weighted, Finset.sum_range_add]
  congr 1
  refine Finset.sum_congr rfl fun j _ => ?_
  simp [List.getD_eq_getElem?_getD, List.getElem?_drop]

theorem weighted_take (n : Nat) (f : Nat → F) (z : List F) : weighted n f (z.take n) = weighted n f z := by
  refine Finset.sum_congr rfl fun k hk => ?_
  rw [List.getD_eq_getElem?_getD, List.getElem?_take, if_pos (Finset.mem_range.1 hk), ← List.getD_eq_getElem?_getD]

theorem rowCoeff_cons (x : F × Nat) (row : List (F × Nat)) (k : Nat) :
    rowCoeff (x :: row) k = (if x.2 = k then x.1 else 0) + rowCoeff row k := by
  simp only [rowCoeff, List.filter_cons]
  by_cases h : x.2 = k <;> simp [h]

theorem row_weighted {row : List (F × Nat)} {N : Nat} (h : ∀ x ∈ row, x.2 < N) (z : List F) :
    weighted N (rowCoeff row) z = rowValue row z := by
  induction row with
  | nil => simp [weighted, rowCoeff, rowValue]
  | cons x row ih =>
    have ih := ih fun y hy => h y (by simp [hy])
    simp only [weighted, rowCoeff_cons, mul_add, Finset.sum_add_distrib] at ih ⊢
    rw [ih]
    simp only [rowValue, List.map_cons, List.sum_cons, mul_ite, mul_zero]
    rw [Finset.sum_ite_eq, if_pos (Finset.mem_range.2 (h x (by simp))), mul_comm]

theorem weighted_interp (n : Nat) (w τ : F) (N : Nat) (v : Nat → Nat → F) (z : List F) :
    weighted N (fun k => (interp n w (v k)).eval τ) z = (interp n w fun j => weighted N (fun k => v k j) z).eval τ := by
  have e : (fun j => weighted N (fun k => v k j) z) = ∑ k ∈ Finset.range N, z.getD k 0 • v k := by
    funext j
    simp [weighted, Finset.sum_apply]
  rw [e, interp, map_sum, eval_finsetSum]
  refine Finset.sum_congr rfl fun k _ => ?_
  rw [map_smul, eval_smul, smul_eq_mul]
  rfl

end Sums

section Polys

variable {F : Type} [Field F] {m : Matrices F} (hm : m.WellFormed) (w τ : F) (z : List F)

theorem getD_mem {α : Type} {l : List (List α)} {j : Nat} {x : α} (hx : x ∈ l.getD j []) : ∃ row ∈ l, x ∈ row := by
  rw [List.getD_eq_getElem?_getD] at hx
  cases h : l[j]? with
  | none => simp [h] at hx
  | some row => exact ⟨row, List.mem_of_getElem? h, by simpa [h] using hx⟩

include hm

theorem weighted_polyA : weighted (m.numInstance + m.numWitness) (fun k => (m.polyA w k).eval τ) z =
    (interp (2 ^ m.power) w (m.valueA z)).eval τ := by
  rw [show (fun k => (m.polyA w k).eval τ) = fun k => (interp (2 ^ m.power) w ((fun k j =>
    if j < m.numConstraints then rowCoeff (m.a.getD j []) k
    else if k < m.numInstance ∧ j = m.numConstraints + k then 1 else 0) k)).eval τ from rfl, weighted_interp]
  congr 2
  funext j
  by_cases hj : j < m.numConstraints
  · simp only [if_pos hj, Matrices.valueA]
    refine row_weighted (fun x hx => ?_) z
    obtain ⟨row, h1, h2⟩ := getD_mem hx
    exact hm.indexA row h1 x h2
  · simp only [if_neg hj, Matrices.valueA, weighted]
    by_cases h2 : j < m.numConstraints + m.numInstance
    · rw [if_pos h2, Finset.sum_eq_single (j - m.numConstraints)]
      · rw [if_pos (by omega), mul_one]
      · intro k _ hk; rw [if_neg (by omega), mul_zero]
      · intro h; exact absurd (Finset.mem_range.2 (by omega)) h
    · rw [if_neg h2]
      refine Finset.sum_eq_zero fun k _ => ?_
      rw [if_neg (by omega), mul_zero]

theorem weighted_polyB : weighted (m.numInstance + m.numWitness) (fun k => (m.polyB w k).eval τ) z =
    (interp (2 ^ m.power) w (m.valueB z)).eval τ := by
  rw [show (fun k => (m.polyB w k).eval τ) = fun k => (interp (2 ^ m.power) w ((fun k j =>
    if j < m.numConstraints then rowCoeff (m.b.getD j []) k else 0) k)).eval τ from rfl, weighted_interp]
  congr 2
  funext j
  by_cases hj : j < m.numConstraints
  · simp only [if_pos hj, Matrices.valueB]
    refine row_weighted (fun x hx => ?_) z
    obtain ⟨row, h1, h2⟩ := getD_mem hx
    exact hm.indexB row h1 x h2
  · simp [if_neg hj, Matrices.valueB, weighted]

theorem weighted_polyC : weighted (m.numInstance + m.numWitness) (fun k => (m.polyC w k).eval τ) z =
    (interp (2 ^ m.power) w (m.valueC z)).eval τ := by
  rw [show (fun k => (m.polyC w k).eval τ) = fun k => (interp (2 ^ m.power) w ((fun k j =>
    if j < m.numConstraints then rowCoeff (m.c.getD j []) k else 0) k)).eval τ from rfl, weighted_interp]
  congr 2
  funext j
  by_cases hj : j < m.numConstraints
  · simp only [if_pos hj, Matrices.valueC]
    refine row_weighted (fun x hx => ?_) z
    obtain ⟨row, h1, h2⟩ := getD_mem hx
    exact hm.indexC row h1 x h2
  · simp [if_neg hj, Matrices.valueC, weighted]

end Polys

section Quotient

variable {F G₁ G₂ : Type} [Field F] [AddCommGroup G₁] [Module F G₁] [AddCommGroup G₂] [Module F G₂]

/-- The points of the key for the quotient, combined with what the witness map computes, give the quotient. -/
theorem libsnark_query {m : Matrices F} {w g : F} {x : Toxic F} {g₁ : G₁} {pk : ProvingKey G₁ G₂}
    (hw : IsPrimitiveRoot w (2 ^ m.power)) (hg : g ^ 2 ^ m.power ≠ 1) (hg0 : g ≠ 0) (hk : IsLibsnarkKey m x g₁ pk)
    {z : List F} (hz : m.Satisfied z) :
    combine pk.hQuery (m.libsnarkH w g z) = ((m.qap w z).eval x.τ / x.δ) • g₁ := by
  set n := 2 ^ m.power with hn
  have hnpos : 0 < n := by positivity
  rw [libsnarkH_quotient hw hz hg hg0, hk, combine_range_le _ _ (by simp [coefficients])]
  congr 1
  set q := m.qap w z /ₘ (X ^ n - 1) with hq
  have hdeg : q.degree < (n - 1 : Nat) := quotient_degree hw hz
  have hev : q.eval x.τ = ∑ k ∈ Finset.range (n - 1), q.coeff k * x.τ ^ k := by
    by_cases h0 : q = 0
    · simp [h0]
    · exact eval_eq_sum_range' ((natDegree_lt_iff_degree_lt h0).2 hdeg) _
  have e := congrArg (eval x.τ) (qap_quotient hw hz)
  simp only [eval_mul, eval_sub, eval_pow, eval_X, eval_one] at e
  rw [← e, ← hn, ← hq, hev, Finset.mul_sum, Finset.sum_div, weighted]
  refine Finset.sum_congr rfl fun k hk => ?_
  have hk' := Finset.mem_range.1 hk
  have : (coefficients m q).getD k 0 = q.coeff k := by
    rw [coefficients, List.getD_eq_getElem?_getD, List.getElem?_map, List.getElem?_range (by omega)]; rfl
  rw [this]; ring

theorem circom_query {m : Matrices F} {w v : F} {x : Toxic F} {g₁ : G₁} {pk : ProvingKey G₁ G₂}
    (hv : IsPrimitiveRoot v (2 ^ (m.power + 1))) (hvw : v ^ 2 = w) (hk : IsCircomKey m v x g₁ pk)
    {z : List F} (hz : m.Satisfied z) :
    combine pk.hQuery (m.circomH w v z) = ((m.qap w z).eval x.τ / x.δ) • g₁ := by
  set n := 2 ^ m.power with hn
  have hnpos : 0 < n := by positivity
  have h2n : 2 ^ (m.power + 1) = 2 * n := by rw [pow_succ, mul_comm]
  have hw : IsPrimitiveRoot w n := by
    rw [← hvw]; exact hv.pow (by positivity) (by rw [h2n])
  rw [hk, combine_range_le _ _ (by simp [Matrices.circomH])]
  congr 1
  have hqv : m.qap w z = Lagrange.interpolate (Finset.range (2 * n)) (fun j => v ^ j)
      (fun j => (m.qap w z).eval (v ^ j)) := by
    refine Lagrange.eq_interpolate_of_eval_eq _ ?_ ?_ fun j _ => rfl
    · intro i hi j hj h
      exact hv.pow_inj (by rw [h2n]; simpa using hi) (by rw [h2n]; simpa using hj) h
    · rw [Finset.card_range]
      by_cases h0 : m.qap w z = 0
      · rw [h0, degree_zero]; exact WithBot.bot_lt_coe _
      · rw [← natDegree_lt_iff_degree_lt h0]
        have := qap_degree hw z
        omega
  have hsplit : ∀ f : Nat → F, ∑ j ∈ Finset.range (2 * n), f j =
      ∑ i ∈ Finset.range n, f (2 * i) + ∑ i ∈ Finset.range n, f (2 * i + 1) := by
    intro f
    rw [← Finset.sum_add_distrib]
    clear_value n
    clear hn hnpos h2n hw hqv
    induction n with
    | zero => simp
    | succ n ih => rw [show 2 * (n + 1) = 2 * n + 1 + 1 by ring, Finset.sum_range_succ, Finset.sum_range_succ, ih,
        Finset.sum_range_succ, add_assoc]
  have hq : (m.qap w z).eval x.τ = ∑ i ∈ Finset.range n, (m.qap w z).eval (v ^ (2 * i + 1)) *
      (Lagrange.basis (Finset.range (2 * n)) (fun j => v ^ j) (2 * i + 1)).eval x.τ := by
    conv_lhs => rw [hqv, Lagrange.interpolate_apply, eval_finsetSum]
    simp only [eval_mul, eval_C]
    rw [hsplit, Finset.sum_eq_zero, zero_add]
    intro i hi
    rw [pow_mul, hvw, qap_eval hw hz (Finset.mem_range.1 hi), zero_mul]
  rw [hq, Finset.sum_div, weighted]
  refine Finset.sum_congr rfl fun i hi => ?_
  have hi' := Finset.mem_range.1 hi
  have e : (m.circomH w v z).getD i 0 = (m.qap w z).eval (v ^ (2 * i + 1)) := by
    rw [Matrices.circomH, List.getD_eq_getElem?_getD, List.getElem?_map, List.getElem?_range (by omega)]
    have hc : (fun j => m.valueA z j * m.valueB z j) = m.valueC z := by
      funext j
      by_cases h : j < m.numConstraints
      · simp only [Matrices.valueA, Matrices.valueB, Matrices.valueC, if_pos h, hz j h]
      · simp only [Matrices.valueB, Matrices.valueC, if_neg h, mul_zero]
    simp only [Option.map_some, Option.getD_some, hc, Matrices.qap]
    rw [pow_succ', pow_mul, hvw]
  rw [e, h2n]; ring

end Quotient

section Verify

variable {F G₁ G₂ GT : Type} [Field F] [AddCommGroup G₁] [Module F G₁] [AddCommGroup G₂] [Module F G₂]
  [AddCommGroup GT] [Module F GT] {m : Matrices F} {w : F} {x : Toxic F} {g₁ : G₁} {g₂ : G₂} {pk : ProvingKey G₁ G₂}

/-- The discrete logarithms of the three points of a proof. -/
theorem proofFor_scalars (hm : m.WellFormed) (hk : IsKey m w x g₁ g₂ pk) {z h : List F}
    (hz : z.length = m.numInstance + m.numWitness) {q : F} (hh : combine pk.hQuery h = (q / x.δ) • g₁) (r s : F) :
    proofFor pk z m.numInstance h r s =
      let a := x.α + (interp (2 ^ m.power) w (m.valueA z)).eval x.τ + r * x.δ
      let b := x.β + (interp (2 ^ m.power) w (m.valueB z)).eval x.τ + s * x.δ
      ⟨a • g₁, b • g₂, (weighted m.numWitness (fun k => m.abc w x (m.numInstance + k) / x.δ) (z.drop m.numInstance) +
        q / x.δ + s * a + r * b - r * s * x.δ) • g₁⟩ := by
  have hd : (z.drop m.numInstance).length = m.numWitness := by simp [hz]
  simp only [proofFor, hh, hk.alphaG1, hk.betaG1, hk.betaG2, hk.deltaG1, hk.deltaG2, hk.aQuery, hk.bG1Query,
    hk.bG2Query, hk.lQuery, combine_range _ _ hz, combine_range _ _ hd, weighted_polyA hm, weighted_polyB hm,
    Proof.mk.injEq]
  refine ⟨by module, by module, by module⟩

theorem abc_weighted (hm : m.WellFormed) (z : List F) :
    weighted (m.numInstance + m.numWitness) (m.abc w x) z =
      x.β * (interp (2 ^ m.power) w (m.valueA z)).eval x.τ + x.α * (interp (2 ^ m.power) w (m.valueB z)).eval x.τ +
        (interp (2 ^ m.power) w (m.valueC z)).eval x.τ := by
  rw [← weighted_polyA hm, ← weighted_polyB hm, ← weighted_polyC hm]
  simp only [weighted, Matrices.abc, Finset.mul_sum, ← Finset.sum_add_distrib]
  refine Finset.sum_congr rfl fun k _ => ?_
  ring

theorem weighted_div (n : Nat) (f : Nat → F) (c : F) (z : List F) :
    weighted n (fun k => f k / c) z = weighted n f z / c := by
  simp only [weighted, Finset.sum_div, mul_div_assoc]

/-- The third point is determined by the other two and the public inputs. -/
theorem third_scalar (hm : m.WellFormed) (hδ : x.δ ≠ 0) {z : List F} {r s : F} :
    let a := x.α + (interp (2 ^ m.power) w (m.valueA z)).eval x.τ + r * x.δ
    let b := x.β + (interp (2 ^ m.power) w (m.valueB z)).eval x.τ + s * x.δ
    weighted m.numWitness (fun k => m.abc w x (m.numInstance + k) / x.δ) (z.drop m.numInstance) +
        (m.qap w z).eval x.τ / x.δ + s * a + r * b - r * s * x.δ =
      (a * b - x.α * x.β - weighted m.numInstance (m.abc w x) (z.take m.numInstance)) / x.δ := by
  intro a b
  have h := abc_weighted (w := w) (x := x) hm z
  rw [weighted_split, ← weighted_take] at h
  rw [weighted_div, eq_div_iff hδ, sub_mul, add_mul, add_mul, add_mul, div_mul_cancel₀ _ hδ, div_mul_cancel₀ _ hδ]
  simp only [Matrices.qap, eval_sub, eval_mul, a, b] at h ⊢
  linear_combination h

theorem verifies_of_key (hm : m.WellFormed) (hk : IsKey m w x g₁ g₂ pk) (hγ : x.γ ≠ 0) (hδ : x.δ ≠ 0)
    {inputs ws h : List F} (hi : inputs.length + 1 = m.numInstance) (hw : ws.length = m.numWitness)
    (hh : combine pk.hQuery h = ((m.qap w (1 :: inputs ++ ws)).eval x.τ / x.δ) • g₁) (r s : F)
    (e : G₁ →ₗ[F] G₂ →ₗ[F] GT) :
    Verifies e pk inputs (proofFor pk (1 :: inputs ++ ws) m.numInstance h r s) := by
  have hz : (1 :: inputs ++ ws).length = m.numInstance + m.numWitness := by simp [← hi, ← hw]; omega
  refine ⟨by simp [hk.gammaAbcG1, hi], ?_⟩
  have ht : (1 :: inputs ++ ws).take m.numInstance = 1 :: inputs := by simp [← hi]
  rw [proofFor_scalars hm hk hz hh]
  simp only [third_scalar (w := w) hm hδ]
  rw [hk.gammaAbcG1, combine_range _ _ (by simpa using hi), ht, hk.alphaG1, hk.betaG2, hk.gammaG2, hk.deltaG2]
  simp only [map_smul, LinearMap.smul_apply, smul_smul, ← add_smul, weighted_div]
  congr 1
  field_simp
  ring

/-- Two assignments with the same public inputs have the same proofs, for other random values. -/
theorem proofs_equiv (hm : m.WellFormed) (hk : IsKey m w x g₁ g₂ pk) (hδ : x.δ ≠ 0) {z z' h h' : List F}
    (hz : z.length = m.numInstance + m.numWitness) (hz' : z'.length = m.numInstance + m.numWitness)
    (hh : combine pk.hQuery h = ((m.qap w z).eval x.τ / x.δ) • g₁)
    (hh' : combine pk.hQuery h' = ((m.qap w z').eval x.τ / x.δ) • g₁)
    (hpub : z.take m.numInstance = z'.take m.numInstance) :
    ∃ f : F × F ≃ F × F, ∀ rs : F × F, proofFor pk z' m.numInstance h' (f rs).1 (f rs).2 =
      proofFor pk z m.numInstance h rs.1 rs.2 := by
  set da := ((interp (2 ^ m.power) w (m.valueA z)).eval x.τ - (interp (2 ^ m.power) w (m.valueA z')).eval x.τ) / x.δ
    with hda
  set db := ((interp (2 ^ m.power) w (m.valueB z)).eval x.τ - (interp (2 ^ m.power) w (m.valueB z')).eval x.τ) / x.δ
    with hdb
  refine ⟨(Equiv.addRight da).prodCongr (Equiv.addRight db), fun rs => ?_⟩
  simp only [Equiv.prodCongr_apply, Prod.map_fst, Prod.map_snd, Equiv.coe_addRight]
  rw [proofFor_scalars hm hk hz' hh', proofFor_scalars hm hk hz hh]
  simp only [third_scalar (w := w) hm hδ]
  have ea : x.α + (interp (2 ^ m.power) w (m.valueA z')).eval x.τ + (rs.1 + da) * x.δ =
      x.α + (interp (2 ^ m.power) w (m.valueA z)).eval x.τ + rs.1 * x.δ := by
    rw [hda, add_mul, div_mul_cancel₀ _ hδ]; ring
  have eb : x.β + (interp (2 ^ m.power) w (m.valueB z')).eval x.τ + (rs.2 + db) * x.δ =
      x.β + (interp (2 ^ m.power) w (m.valueB z)).eval x.τ + rs.2 * x.δ := by
    rw [hdb, add_mul, div_mul_cancel₀ _ hδ]; ring
  rw [ea, eb, hpub]

end Verify

end Verif.Groth16
