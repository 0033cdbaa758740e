import Verif.Honk.Degree
import Verif.Honk.UnivariateLemmas
import Mathlib.Algebra.Polynomial.BigOperators

/-! # The sums of the sumcheck -/

namespace Verif.Honk

open Polynomial

variable {F : Type} [Field F]

/-- One round on a table. -/
def foldRows (u : F) (T : Nat → Col → F) : Nat → Col → F := fun l c => T (2 * l) c + (T (2 * l + 1) c - T (2 * l) c) * u

/-- Several rounds on a table. -/
def foldAll (us : List F) (T : Nat → Col → F) : Nat → Col → F := us.foldl (fun T u => foldRows u T) T

/-- The weight of a row. -/
def weight : List F → Nat → F
  | [], _ => 1
  | β :: bs, l => (if l % 2 = 1 then β else 1) * weight bs (l / 2)

/-- The row-independent part of the weight. -/
def sepValue : List F → List F → F
  | β :: bs, u :: us => (1 + u * (β - 1)) * sepValue bs us
  | _, _ => 1

/-- All subrelations on a row. -/
def batched (f : Subrel → F) (p : Params F) (w : F) (e : Col → F) : F :=
  (Subrel.all.map fun s => (if s.independent then w else 1) * (f s * s.value F p e)).sum

/-- All subrelations on all rows. -/
def total (f : Subrel → F) (p : Params F) (m : Nat) (bs : List F) (c : F) (T : Nat → Col → F) : F :=
  ∑ l ∈ Finset.range (2 ^ m), batched f p (c * weight bs l) (T l)

/-- The polynomial of one edge. -/
noncomputable def batchedPoly (f : Subrel → F) (p : Params F) (w : F[X]) (a b : Col → F) : F[X] :=
  (Subrel.all.map fun s => (if s.independent then w else 1) * (C (f s) * s.value F p.const (linePoly a b))).sum

/-- The polynomial of a round. -/
noncomputable def roundPoly (f : Subrel → F) (p : Params F) (m : Nat) (β : F) (bs : List F) (c : F) (T : Nat → Col → F) : F[X] :=
  ∑ l ∈ Finset.range (2 ^ m), batchedPoly f p (C (c * weight bs l) * (1 + X * C (β - 1))) (T (2 * l)) (T (2 * l + 1))

theorem list_eval_sum (l : List F[X]) (x : F) : l.sum.eval x = (l.map (eval x)).sum := by
  induction l with
  | nil => simp
  | cons a l ih => simp [ih]

theorem linePoly_eval (a b : Col → F) (x : F) (c : Col) : (linePoly a b c).eval x = a c + (b c - a c) * x := by
  simp [linePoly]

theorem batchedPoly_eval (f : Subrel → F) (p : Params F) (w : F[X]) (a b : Col → F) (x : F) :
    (batchedPoly f p w a b).eval x = batched f p (w.eval x) (fun c => a c + (b c - a c) * x) := by
  rw [batchedPoly, list_eval_sum, batched, List.map_map]
  congr 1
  refine List.map_congr_left fun s _ => ?_
  simp only [Function.comp, eval_mul, eval_C, value_eval, linePoly_eval]
  split_ifs <;> simp

theorem Subrel.len_pos (s : Subrel) : s.len ≤ 7 ∧ 0 < s.len := by cases s <;> decide

theorem natDegree_list_sum (l : List F[X]) (k : Nat) (h : ∀ q ∈ l, q.natDegree ≤ k) : l.sum.natDegree ≤ k := by
  induction l with
  | nil => simp
  | cons a l ih =>
    rw [List.sum_cons]
    exact (natDegree_add_le _ _).trans (max_le (h a (by simp)) (ih fun q hq => h q (by simp [hq])))

theorem batchedPoly_natDegree (f : Subrel → F) (p : Params F) (w : F[X]) (hw : w.natDegree ≤ 1) (a b : Col → F) :
    (batchedPoly f p w a b).natDegree ≤ 7 := by
  refine natDegree_list_sum _ _ fun q hq => ?_
  obtain ⟨s, -, rfl⟩ := List.mem_map.1 hq
  have h1 : (C (f s) * s.value F p.const (linePoly a b)).natDegree ≤ 6 :=
    (natDegree_C_mul_le _ _).trans ((value_natDegree p a b s).trans (by have := s.len_pos; omega))
  refine natDegree_mul_le.trans ?_
  split_ifs
  · omega
  · simp; omega

theorem roundPoly_natDegree (f : Subrel → F) (p : Params F) (m : Nat) (β : F) (bs : List F) (c : F) (T : Nat → Col → F) :
    (roundPoly f p m β bs c T).natDegree ≤ 7 := by
  refine natDegree_sum_le_of_forall_le _ _ fun l _ => batchedPoly_natDegree f p _ ?_ _ _
  compute_degree

theorem roundPoly_eval (f : Subrel → F) (p : Params F) (m : Nat) (β : F) (bs : List F) (c : F) (T : Nat → Col → F) (u : F) :
    (roundPoly f p m β bs c T).eval u = total f p m bs (c * (1 + u * (β - 1))) (foldRows u T) := by
  rw [roundPoly, eval_finsetSum, total]
  refine Finset.sum_congr rfl fun l _ => ?_
  rw [batchedPoly_eval]
  congr 1
  simp
  ring

theorem weight_even (β : F) (bs : List F) (l : Nat) : weight (β :: bs) (2 * l) = weight bs l := by
  simp [weight]

theorem weight_odd (β : F) (bs : List F) (l : Nat) : weight (β :: bs) (2 * l + 1) = β * weight bs l := by
  have h : (2 * l + 1) / 2 = l := by omega
  simp [weight, h]

theorem sum_range_two_mul (g : Nat → F) (m : Nat) :
    ∑ l ∈ Finset.range (2 * m), g l = ∑ l ∈ Finset.range m, (g (2 * l) + g (2 * l + 1)) := by
  induction m with
  | zero => simp
  | succ m ih => rw [show 2 * (m + 1) = 2 * m + 1 + 1 from by ring, Finset.sum_range_succ, Finset.sum_range_succ, ih, Finset.sum_range_succ, add_assoc]

theorem roundPoly_sum (f : Subrel → F) (p : Params F) (m : Nat) (β : F) (bs : List F) (c : F) (T : Nat → Col → F) :
    (roundPoly f p m β bs c T).eval 0 + (roundPoly f p m β bs c T).eval 1 = total f p (m + 1) (β :: bs) c T := by
  rw [roundPoly_eval, roundPoly_eval, total, total, total, pow_succ', sum_range_two_mul, ← Finset.sum_add_distrib]
  refine Finset.sum_congr rfl fun l _ => ?_
  rw [weight_even, weight_odd]
  congr 1
  · congr 1
    · ring
    · funext c; simp [foldRows]
  · congr 1
    · ring
    · funext c; simp [foldRows]

/-! ## Rows of zeros -/

theorem value_zero (p : Params F) (s : Subrel) : s.value F p (fun _ => 0) = 0 := by
  cases s <;> simp [Subrel.value, readTerm, writeTerm, record, inRange]

theorem batched_zero (f : Subrel → F) (p : Params F) (w : F) : batched f p w (fun _ => 0) = 0 := by
  simp [batched, value_zero]

/-- The rows from `n` on are zero. -/
def ZeroFrom (n : Nat) (T : Nat → Col → F) : Prop := ∀ l, n ≤ l → ∀ c, T l c = 0

theorem ZeroFrom.fold {n : Nat} {T : Nat → Col → F} (h : ZeroFrom n T) (u : F) : ZeroFrom ((n + 1) / 2) (foldRows u T) := by
  intro l hl c
  simp [foldRows, h (2 * l) (by omega) c, h (2 * l + 1) (by omega) c]

theorem batchedPoly_zero (f : Subrel → F) (p : Params F) (w : F[X]) (a b : Col → F) (ha : ∀ c, a c = 0) (hb : ∀ c, b c = 0) :
    batchedPoly f p w a b = 0 := by
  have e : linePoly a b = fun _ => 0 := by funext c; simp [linePoly, ha, hb]
  have v : ∀ s : Subrel, s.value F p.const (fun _ => (0 : F[X])) = 0 := by
    intro s; cases s <;> simp [Subrel.value, readTerm, writeTerm, record, inRange]
  simp [batchedPoly, e, v]

/-- The rows of zeros do not matter for the polynomial of a round. -/
theorem roundPoly_short (f : Subrel → F) (p : Params F) (m k : Nat) (hk : k ≤ 2 ^ m) (β : F) (bs : List F) (c : F) (T : Nat → Col → F)
    (hT : ZeroFrom (2 * k) T) :
    roundPoly f p m β bs c T
      = ∑ l ∈ Finset.range k, batchedPoly f p (C (c * weight bs l) * (1 + X * C (β - 1))) (T (2 * l)) (T (2 * l + 1)) := by
  rw [roundPoly]
  symm
  refine Finset.sum_subset (by intro x; simp; omega) fun l _ hl => ?_
  have : k ≤ l := by simpa using hl
  exact batchedPoly_zero f p _ _ _ (hT _ (by omega)) (hT _ (by omega))

/-! ## Several rounds -/

theorem foldAll_nil (T : Nat → Col → F) : foldAll [] T = T := rfl

theorem foldAll_append (us : List F) (u : F) (T : Nat → Col → F) : foldAll (us ++ [u]) T = foldRows u (foldAll us T) := by
  simp [foldAll]

theorem sepValue_append (bs us : List F) (u : F) (h : us.length < bs.length) :
    sepValue bs (us ++ [u]) = sepValue bs us * (1 + u * (bs.getD us.length 0 - 1)) := by
  induction us generalizing bs with
  | nil =>
    cases bs with
    | nil => simp at h
    | cons b bs => cases bs <;> simp [sepValue]
  | cons v us ih =>
    cases bs with
    | nil => simp at h
    | cons b bs =>
      have := ih bs (by simpa using h)
      simp only [List.cons_append, sepValue, this, List.length_cons, List.getD_cons_succ]
      ring

theorem weight_drop (bs : List F) (j k : Nat) : weight bs (k * 2 ^ j) = weight (bs.drop j) k := by
  induction j generalizing bs with
  | zero => simp
  | succ j ih =>
    cases bs with
    | nil => simp [weight]
    | cons b bs =>
      rw [show k * 2 ^ (j + 1) = 2 * (k * 2 ^ j) from by ring, weight_even, ih]
      simp

theorem weight_zero (bs : List F) : weight bs 0 = 1 := by
  induction bs with
  | nil => rfl
  | cons b bs ih => simp [weight, ih]

end Verif.Honk
