import Verif.Honk.Univariate
import Verif.Spec.Honk
import Mathlib.LinearAlgebra.Lagrange
import Mathlib.Tactic.Ring
import Mathlib.Tactic.FieldSimp
import Mathlib.Tactic.LinearCombination

/-! # Extension and evaluation of univariates -/

namespace Verif.Honk

open Polynomial

variable {F : Type} [Field F]

namespace Univariate

/-- The values of a polynomial at `0, …, n - 1`. -/
def ofPoly (n : Nat) (f : F[X]) : Univariate F n := fun i => f.eval ((i : Nat) : F)

theorem fullNumerator_eq (m : Nat) (x : F) :
    fullNumerator m x = eval x (Lagrange.nodal Finset.univ fun j : Fin m => ((j : Nat) : F)) := by
  rw [Lagrange.eval_nodal, fullNumerator, Finset.prod_range]

theorem lagrangeDenominator_eq (m : Nat) (i : Fin m) :
    (lagrangeDenominator m i : F)⁻¹ = Lagrange.nodalWeight Finset.univ (fun j : Fin m => ((j : Nat) : F)) i := by
  rw [Lagrange.nodalWeight, lagrangeDenominator, Finset.prod_range, Finset.prod_inv_distrib]
  congr 1
  rw [← Finset.mul_prod_erase Finset.univ _ (Finset.mem_univ i)]
  simp only [ne_eq, not_true_eq_false, if_false, one_mul]
  refine Finset.prod_congr rfl fun j hj => ?_
  rw [if_pos]
  intro h
  exact (Finset.mem_erase.1 hj).1 (Fin.ext h)

theorem lagrangeDenominator_ne {m : Nat} (hd : Distinct F m) (i : Nat) (hi : i < m) : (lagrangeDenominator m i : F) ≠ 0 := by
  rw [lagrangeDenominator, Finset.prod_ne_zero_iff]
  intro j hj
  split_ifs with h
  · rw [sub_ne_zero]
    intro he
    exact h (hd i hi j (Finset.mem_range.1 hj) he).symm
  · exact one_ne_zero

theorem barycentric_ofPoly {m : Nat} (hd : Distinct F m) (f : F[X]) (hf : f.natDegree < m) (x : F)
    (hx : ∀ j < m, x ≠ (j : F)) : barycentric (ofPoly m f) x = f.eval x := by
  have hv : Set.InjOn (fun j : Fin m => ((j : Nat) : F)) (Finset.univ : Finset (Fin m)) :=
    fun i _ j _ h => Fin.ext (hd i i.2 j j.2 h)
  have hdeg : f.degree < (Finset.univ : Finset (Fin m)).card := by
    rw [Finset.card_univ, Fintype.card_fin]
    exact lt_of_le_of_lt degree_le_natDegree (by exact_mod_cast hf)
  conv_rhs => rw [Lagrange.eq_interpolate hv hdeg,
    Lagrange.eval_interpolate_not_at_node (s := Finset.univ) (v := fun j : Fin m => ((j : Nat) : F)) _ (fun i _ => hx i.1 i.2)]
  rw [barycentric, fullNumerator_eq, mul_comm]
  congr 1
  refine Finset.sum_congr rfl fun j _ => ?_
  rw [mul_inv, lagrangeDenominator_eq, ofPoly, mul_comm]

theorem extend2_eq (a b : F) (k : Nat) : extend2 a (a + b) k = a + b * ((k : F) + 1) := by
  induction k with
  | zero => simp [extend2]
  | succ k ih => rw [extend2, ih]; push_cast; ring

theorem extend3_eq (h2 : (2 : F) ≠ 0) (a b c : F) (k : Nat) :
    extend3 c (a + b + c) (4 * a + 2 * b + c) k
      = (a * ((k : F) + 2) ^ 2 + b * ((k : F) + 2) + c, a * (2 * (k : F) + 5) + b) := by
  have h : (4 * a + 2 * b + c + c) * (2 : F)⁻¹ - (a + b + c) = a := by field_simp; ring
  induction k with
  | zero => simp only [extend3, h]; refine Prod.ext ?_ ?_ <;> push_cast <;> ring
  | succ k ih => rw [extend3, ih]; simp only [h]; refine Prod.ext ?_ ?_ <;> push_cast <;> ring

theorem cubic_eq (h2 : (2 : F) ≠ 0) (h3 : (3 : F) ≠ 0) (a b c d : F) :
    cubic d (a + b + c + d) (8 * a + 4 * b + 2 * c + d) (27 * a + 9 * b + 3 * c + d) = (a, b, c) := by
  have h6 : (6 : F) ≠ 0 := by
    have := mul_ne_zero h2 h3
    norm_num at this
    exact this
  simp only [cubic]
  refine Prod.ext ?_ (Prod.ext ?_ ?_) <;> simp only <;> field_simp <;> ring

theorem extend4_eq (h2 : (2 : F) ≠ 0) (h3 : (3 : F) ≠ 0) (a b c d : F) (k : Nat) :
    extend4 d (a + b + c + d) (8 * a + 4 * b + 2 * c + d) (27 * a + 9 * b + 3 * c + d) k
      = ⟨a * ((k : F) + 3) ^ 3 + b * ((k : F) + 3) ^ 2 + c * ((k : F) + 3) + d, 3 * a * ((k : F) + 3) ^ 2,
        6 * a * ((k : F) + 3), (3 * a + 2 * b) * ((k : F) + 3) + (a + b + c)⟩ := by
  induction k with
  | zero => simp only [extend4, cubic_eq h2 h3, Cubic.mk.injEq]; refine ⟨?_, ?_, ?_, ?_⟩ <;> push_cast <;> ring
  | succ k ih =>
    rw [extend4, ih]; simp only [cubic_eq h2 h3, Cubic.mk.injEq]; refine ⟨?_, ?_, ?_, ?_⟩ <;> push_cast <;> ring

theorem Distinct.ne_zero {m : Nat} (hd : Distinct F m) {k : Nat} (hk : k < m) (h0 : k ≠ 0) : (k : F) ≠ 0 := fun h =>
  h0 (hd k hk 0 (by omega) (by simpa using h))

theorem eval_lt_sum {m : Nat} (f : F[X]) (hf : f.natDegree < m) (x : F) :
    f.eval x = ∑ i ∈ Finset.range m, f.coeff i * x ^ i := eval_eq_sum_range' hf x

theorem extendFrom_ofPoly {m : Nat} (n : Nat) (hd : Distinct F (max m n)) (f : F[X]) (hf : f.natDegree < m) :
    extendFrom n (ofPoly m f) = ofPoly n f := by
  funext i
  rw [extendFrom]
  split_ifs with h
  · rfl
  · have hdm : Distinct F m := fun i hi j hj => hd i (lt_max_of_lt_left hi) j (lt_max_of_lt_left hj)
    have hx : ∀ j < m, ((i : Nat) : F) ≠ (j : F) := fun j hj he => by
      have := hd i (lt_max_of_lt_right i.2) j (lt_max_of_lt_left hj) he
      omega
    split
    · have e : ((i.1 - 1 : Nat) : F) = (i.1 : F) - 1 := by rw [Nat.cast_sub (by omega)]; simp
      have key := extend2_eq (f.coeff 0) (f.coeff 1) (i.1 - 1)
      rw [e] at key
      simp only [ofPoly, eval_lt_sum f hf, Finset.sum_range_succ, Finset.sum_range_zero]
      simp
      rw [key]
      ring
    · have h2 : (2 : F) ≠ 0 := by exact_mod_cast Distinct.ne_zero hdm (k := 2) (by omega) (by omega)
      have e : ((i.1 - 2 : Nat) : F) = (i.1 : F) - 2 := by rw [Nat.cast_sub (by omega)]; simp
      have key := extend3_eq h2 (f.coeff 2) (f.coeff 1) (f.coeff 0) (i.1 - 2)
      rw [e] at key
      simp only [ofPoly, eval_lt_sum f hf, Finset.sum_range_succ, Finset.sum_range_zero]
      refine Eq.trans (congrArg Prod.fst ((congr (congr (congr (congrArg _ ?_) ?_) ?_) rfl).trans key)) ?_
      · simp
      · simp; ring
      · simp; ring
      · simp; ring
    · have h2 : (2 : F) ≠ 0 := by exact_mod_cast Distinct.ne_zero hdm (k := 2) (by omega) (by omega)
      have h3 : (3 : F) ≠ 0 := by exact_mod_cast Distinct.ne_zero hdm (k := 3) (by omega) (by omega)
      have e : ((i.1 - 3 : Nat) : F) = (i.1 : F) - 3 := by rw [Nat.cast_sub (by omega)]; simp
      have key := extend4_eq h2 h3 (f.coeff 3) (f.coeff 2) (f.coeff 1) (f.coeff 0) (i.1 - 3)
      rw [e] at key
      simp only [ofPoly, eval_lt_sum f hf, Finset.sum_range_succ, Finset.sum_range_zero]
      refine Eq.trans (congrArg Cubic.value ((congr (congr (congr (congr (congrArg _ ?_) ?_) ?_) ?_) rfl).trans key)) ?_
      · simp
      · simp; ring
      · simp; ring
      · simp; ring
      · simp; ring
    · exact barycentric_ofPoly hdm f hf _ hx

theorem evaluate_ofPoly [DecidableEq F] {n : Nat} (hd : Distinct F (n + 1)) (f : F[X]) (hf : f.natDegree < n + 1) (u : F)
    (hu : ∀ i, 1 ≤ i → i < n + 1 → u ≠ (i : F)) : evaluate (ofPoly (n + 1) f) u = .ok (f.eval u) := by
  rw [evaluate]
  split_ifs with h0 h
  · simp [ofPoly, h0]
  · exfalso
    obtain ⟨i, hi⟩ := h
    rcases mul_eq_zero.1 hi with h | h
    · exact lagrangeDenominator_ne hd i i.2 h
    · by_cases hz : (i : Nat) = 0
      · rw [hz] at h; simp at h; exact h0 h
      · exact hu i (by omega) i.2 (sub_eq_zero.1 h)
  · congr 1
    rw [← barycentric_ofPoly hd f hf u]
    · simp [barycentric]
    · intro j hj he
      by_cases hz : j = 0
      · subst hz; simp at he; exact h0 he
      · exact hu j (by omega) hj he

/-- The polynomial with the given values. -/
noncomputable def toPoly {n : Nat} (a : Univariate F n) : F[X] :=
  Lagrange.interpolate Finset.univ (fun j : Fin n => ((j : Nat) : F)) a

theorem nodes_inj {n : Nat} (hd : Distinct F n) :
    Set.InjOn (fun j : Fin n => ((j : Nat) : F)) (Finset.univ : Finset (Fin n)) :=
  fun i _ j _ h => Fin.ext (hd i i.2 j j.2 h)

theorem toPoly_natDegree {n : Nat} (hd : Distinct F n) (hn : 0 < n) (a : Univariate F n) : a.toPoly.natDegree < n := by
  have := Lagrange.degree_interpolate_lt a (nodes_inj hd)
  rw [Finset.card_univ, Fintype.card_fin] at this
  by_cases h0 : a.toPoly = 0
  · rw [h0]; simpa using hn
  · exact (natDegree_lt_iff_degree_lt h0).2 this

theorem ofPoly_toPoly {n : Nat} (hd : Distinct F n) (a : Univariate F n) : ofPoly n a.toPoly = a := by
  funext i
  exact Lagrange.eval_interpolate_at_node a (nodes_inj hd) (Finset.mem_univ i)

theorem evaluate_toPoly [DecidableEq F] {n : Nat} (hd : Distinct F (n + 1)) (a : Univariate F (n + 1)) (u v : F)
    (h : evaluate a u = .ok v) : v = a.toPoly.eval u := by
  have hok : ∀ i, 1 ≤ i → i < n + 1 → u ≠ (i : F) := by
    intro i h1 hi he
    have hne := Distinct.ne_zero hd hi (by omega)
    rw [evaluate, if_neg (by rw [he]; exact hne), if_pos ⟨⟨i, hi⟩, by rw [he]; simp⟩] at h
    cases h
  have := evaluate_ofPoly hd a.toPoly (toPoly_natDegree hd (by omega) a) u hok
  rw [ofPoly_toPoly hd, h] at this
  exact Except.ok.inj this

end Univariate

end Verif.Honk
