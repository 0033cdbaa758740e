import Verif.Plonk.WireLemmas
import Mathlib.Algebra.BigOperators.Fin
import Mathlib.Algebra.BigOperators.Field

/-!
# Lemmas: the permutation product and the Lagrange polynomials
-/

namespace Verif.Plonk

open Polynomial Finset
open Groth16 (getD_map_range)

variable {F G H : Type} [Field F]

theorem prefixProducts_length (acc : F) (l : List F) : (prefixProducts acc l).length = l.length := by
  induction l generalizing acc with
  | nil => rfl
  | cons x l ih => simp [prefixProducts, ih]

theorem prefixProducts_range (acc : F) (f : Nat → F) (n : Nat) :
    prefixProducts acc ((List.range n).map f) = (List.range n).map fun i => acc * ∏ j ∈ range (i + 1), f j := by
  induction n generalizing acc f with
  | zero => rfl
  | succ n ih =>
    rw [List.range_succ_eq_map, List.map_cons, List.map_cons, List.map_map, List.map_map, prefixProducts, ih]
    congr 1
    · simp
    · refine List.map_congr_left fun i _ => ?_
      simp only [Function.comp]
      rw [prod_range_succ' _ (i + 1), mul_assoc, mul_comm (f 0)]

theorem zipWith_map_range {α β γ : Type} (g : α → β → γ) (f₁ : Nat → α) (f₂ : Nat → β) (n : Nat) :
    List.zipWith g ((List.range n).map f₁) ((List.range n).map f₂) = (List.range n).map fun i => g (f₁ i) (f₂ i) := by
  rw [List.zipWith_map, List.zipWith_self]

theorem rotateRight_range {n : Nat} (hn : 0 < n) (f : Nat → F) (g : Nat → F) (h0 : g 0 = f (n - 1))
    (hs : ∀ i, g (i + 1) = f i) : rotateRight ((List.range n).map f) = (List.range n).map g := by
  obtain ⟨n, rfl⟩ := Nat.exists_eq_succ_of_ne_zero hn.ne'
  simp only [rotateRight, List.length_map, List.length_range, Nat.succ_eq_add_one, Nat.add_sub_cancel] at h0 ⊢
  have hr : (List.range (n + 1)).map g = f n :: (List.range n).map f := by
    rw [List.range_succ_eq_map, List.map_cons, List.map_map, h0]
    exact congrArg _ (List.map_congr_left fun i _ => hs i)
  rw [hr, List.range_succ, List.map_append]
  rw [List.drop_append_of_le_length (by simp), List.take_append_of_le_length (by simp)]
  rw [List.drop_of_length_le (by simp), List.take_of_length_le (by simp)]
  rfl

/-- The vector `z` before interpolation: quotients of products. -/
theorem bufferZ_eq {n : Nat} (hn : 0 < n) (num den : Nat → F) (hden : ∀ i < n, den i ≠ 0)
    (htot : ∏ i ∈ range n, num i = ∏ i ∈ range n, den i) :
    rotateRight (List.zipWith (· * ·) (prefixProducts 1 ((List.range n).map num))
      ((prefixProducts 1 ((List.range n).map den)).map (·⁻¹))) =
      (List.range n).map fun i => (∏ j ∈ range i, num j) / ∏ j ∈ range i, den j := by
  rw [prefixProducts_range, prefixProducts_range, List.map_map, zipWith_map_range]
  refine rotateRight_range hn _ _ ?_ fun i => ?_
  · simp only [Function.comp, one_mul, Nat.sub_add_cancel hn, htot, range_zero, prod_empty, div_one]
    rw [mul_inv_cancel₀]
    exact prod_ne_zero_iff.2 fun i hi => hden i (mem_range.1 hi)
  · simp [div_eq_mul_inv]

instance : Fintype Column := ⟨{.a, .b, .c}, fun x => by cases x <;> simp⟩

theorem prod_column {n : Nat} (f : Column × Fin n → F) :
    ∏ x, f x = ∏ i : Fin n, f (.a, i) * f (.b, i) * f (.c, i) := by
  rw [Fintype.prod_prod_type]
  show ∏ x ∈ ({.a, .b, .c} : Finset Column), ∏ i, f (x, i) = _
  rw [prod_insert (by simp), prod_insert (by simp), prod_singleton, ← prod_mul_distrib, ← prod_mul_distrib]
  exact prod_congr rfl fun i _ => (mul_assoc _ _ _).symm

/-- The two products of round 2 agree. -/
theorem perm_prod {key : Zkey F G H} {w w4 : F} (hp : key.PolysValid w w4) (val : Nat → F) (β γ : F) :
    ∏ i ∈ range key.domainSize, (val (key.signal .a i) + β * key.label w .a i + γ)
      * (val (key.signal .b i) + β * key.label w .b i + γ) * (val (key.signal .c i) + β * key.label w .c i + γ) =
    ∏ i ∈ range key.domainSize, (val (key.signal .a i) + β * polyValue key.s1.coeffs (w ^ i) + γ)
      * (val (key.signal .b i) + β * polyValue key.s2.coeffs (w ^ i) + γ)
      * (val (key.signal .c i) + β * polyValue key.s3.coeffs (w ^ i) + γ) := by
  obtain ⟨σ, hσ⟩ := hp.permutation
  rw [prod_range, prod_range]
  rw [← prod_column (fun x : Column × Fin key.domainSize => val (key.signal x.1 x.2) + β * key.label w x.1 x.2 + γ),
    ← Equiv.prod_comp σ, prod_column]
  refine prod_congr rfl fun i _ => ?_
  have ha := hσ (.a, i)
  have hb := hσ (.b, i)
  have hc := hσ (.c, i)
  simp only [Zkey.sigma] at ha hb hc
  rw [ha.1, hb.1, hc.1, ha.2, hb.2, hc.2]

/-- The value of a Lagrange polynomial outside the domain. -/
theorem lagrange_eval {n : Nat} (hn : 0 < n) {w : F} (hw : IsPrimitiveRoot w n) (hne : (n : F) ≠ 0) {l : F[X]}
    (hl : l.degree < n) {j : Nat} (hj : j < n) (h : ∀ i < n, l.eval (w ^ i) = if i = j then 1 else 0) (x : F) :
    l.eval x * (n * (x - w ^ j)) = w ^ j * (x ^ n - 1) := by
  have hw0 : w ≠ 0 := fun h0 => by
    have := hw.pow_eq_one
    rw [h0, zero_pow hn.ne'] at this
    exact zero_ne_one this
  obtain ⟨q, hq⟩ := dvd_of_vanish hn hw (p := l * (X - C (w ^ j))) fun i hi => by
    rw [eval_mul, h i hi]
    split_ifs with hij
    · simp [hij]
    · simp
  have hmonic : (X ^ n - 1 : F[X]).Monic := monic_X_pow_sub_C 1 hn.ne'
  have hdeg : (X ^ n - 1 : F[X]).natDegree = n := by simpa using natDegree_X_pow_sub_C (n := n) (r := (1 : F))
  have hl' : l.natDegree < n := by
    by_cases h0 : l = 0
    · rw [h0, natDegree_zero]; exact hn
    · exact (natDegree_lt_iff_degree_lt h0).2 hl
  have hqdeg : q.natDegree = 0 := by
    by_cases hq0 : q = 0
    · simp [hq0]
    have e := congrArg natDegree hq
    rw [natDegree_mul hq0 hmonic.ne_zero, hdeg] at e
    have := natDegree_mul_le (p := l) (q := X - C (w ^ j))
    rw [natDegree_X_sub_C] at this
    omega
  rw [eq_C_of_natDegree_eq_zero hqdeg] at hq
  set c := q.coeff 0
  have hder := congrArg (fun p => eval (w ^ j) (derivative p)) hq
  simp only [derivative_mul, derivative_sub, derivative_X, derivative_C, derivative_X_pow, derivative_one, sub_zero, mul_one,
    eval_add, eval_mul, eval_sub, eval_X, eval_C, sub_self, mul_zero, zero_add, zero_mul, eval_pow, eval_natCast, h j hj,
    if_true, map_natCast] at hder
  have hc : c * n = w ^ j := by
    have e1 : (w ^ j) ^ (n - 1) * w ^ j = 1 := by
      rw [← pow_succ, Nat.sub_add_cancel hn, ← pow_mul, mul_comm, pow_mul, hw.pow_eq_one, one_pow]
    linear_combination (-w ^ j) * hder - c * n * e1
  have he := congrArg (eval x) hq
  simp only [eval_mul, eval_sub, eval_X, eval_C, eval_pow, eval_one] at he
  linear_combination (n : F) * he + (x ^ n - 1) * hc

end Verif.Plonk
