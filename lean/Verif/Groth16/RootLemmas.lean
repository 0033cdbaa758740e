import Verif.Groth16.Model
import Mathlib.NumberTheory.LegendreSymbol.Basic
import Mathlib.RingTheory.RootsOfUnity.PrimitiveRoots
import Mathlib.Algebra.Field.ZMod

/-!
# Lemmas: the search for the roots of unity
-/

namespace Verif.Groth16

section Squares

variable {F : Type} [Field F]

theorem squares_length (z : F) (n : Nat) : (squares z n).length = n + 1 := by
  induction n generalizing z with
  | zero => rfl
  | succ n ih => simp [squares, ih]

theorem squares_get (z : F) (n : Nat) {j : Nat} (hj : j ≤ n) : (squares z n)[j]? = some (z ^ 2 ^ j) := by
  induction n generalizing z j with
  | zero => obtain rfl : j = 0 := by omega
            simp [squares]
  | succ n ih =>
    cases j with
    | zero => simp [squares]
    | succ j =>
      rw [squares, List.getElem?_cons_succ, ih _ (by omega), ← pow_mul, ← pow_succ']

theorem squares_reverse_get (z : F) (n : Nat) {k : Nat} (hk : k ≤ n) :
    (squares z n).reverse[k]? = some (z ^ 2 ^ (n - k)) := by
  rw [List.getElem?_reverse (by rw [squares_length]; omega), squares_length,
    show n + 1 - 1 - k = n - k by omega, squares_get _ _ (by omega)]

end Squares

section Search

variable {F : Type} [Field F] [DecidableEq F]

theorem find_some (pr : FftParams F) (n : Nat) (q : F) {j : Nat} (hj : j < n) (h : isNonresidue pr (q + j)) :
    ∃ q', findNonresidue pr n q = some q' ∧ isNonresidue pr q' := by
  induction n generalizing q j with
  | zero => omega
  | succ n ih =>
    by_cases hq : isNonresidue pr q
    · exact ⟨q, by simp [findNonresidue, hq], hq⟩
    · cases j with
      | zero => simp at h; exact absurd h hq
      | succ j =>
        obtain ⟨q', h1, h2⟩ := ih (q + 1) (j := j) (by omega) (by
          rw [show q + 1 + (j : F) = q + ((j + 1 : Nat) : F) by push_cast; ring]; exact h)
        exact ⟨q', by simp [findNonresidue, hq, h1], h2⟩

end Search

variable {p : Nat} [Fact p.Prime]

theorem half_odd (hp : p % 2 = 1) : (p - 1) / 2 = p / 2 := by omega

theorem isNonresidue_iff {pr : FftParams (ZMod p)} (hm : pr.modulus = p) (hp : p % 2 = 1) (q : ZMod p) :
    isNonresidue pr q ↔ q ≠ 0 ∧ ¬ IsSquare q := by
  have h2 : p / 2 ≠ 0 := by have := (Fact.out : p.Prime).two_le; omega
  simp only [isNonresidue, hm, half_odd hp, decide_eq_true_eq]
  by_cases hq : q = 0
  · simp [hq, h2]
  · simp only [ne_eq, hq, not_false_eq_true, true_and, pow_eq_zero_iff h2]
    rw [ZMod.euler_criterion p hq]

theorem find_terminates {pr : FftParams (ZMod p)} (hm : pr.modulus = p) (hp : p % 2 = 1) :
    ∃ q, findNonresidue pr pr.modulus 1 = some q ∧ q ≠ 0 ∧ ¬ IsSquare q := by
  obtain ⟨a, ha⟩ := FiniteField.exists_nonsquare (F := ZMod p) (by
    rw [ZMod.ringChar_zmod_n]; omega)
  have ha0 : a ≠ 0 := fun h => ha (h ▸ ⟨0, by simp⟩)
  have hv : 0 < a.val := Nat.pos_of_ne_zero fun h => ha0 ((ZMod.val_eq_zero a).1 h)
  have hlt := ZMod.val_lt a
  obtain ⟨q, h1, h2⟩ := find_some pr pr.modulus 1 (j := a.val - 1) (by omega) (by
    rw [isNonresidue_iff hm hp, show (1 : ZMod p) + ((a.val - 1 : Nat) : ZMod p) = a by
      rw [Nat.cast_sub (by omega), ZMod.natCast_val, ZMod.cast_id]; simp]
    exact ⟨ha0, ha⟩)
  exact ⟨q, h1, (isNonresidue_iff hm hp q).1 h2⟩

/-- A non-residue to the power of the odd part generates the largest subgroup of two-power order. -/
theorem trace_primitive {q : ZMod p} (hp : p % 2 = 1) (h0 : q ≠ 0) (hq : ¬ IsSquare q) {s t : Nat}
    (hst : p - 1 = 2 ^ s * t) (ht : t % 2 = 1) : IsPrimitiveRoot (q ^ t) (2 ^ s) := by
  have hpp := (Fact.out : p.Prime).two_le
  cases s with
  | zero => omega
  | succ s =>
    rw [IsPrimitiveRoot.iff_orderOf]
    refine orderOf_eq_prime_pow ?_ ?_
    · have e : t * 2 ^ s = p / 2 := by
        rw [← half_odd hp, hst, show 2 ^ (s + 1) * t = t * 2 ^ s * 2 by ring, Nat.mul_div_cancel _ (by norm_num)]
      rw [← pow_mul, e]
      rwa [← ZMod.euler_criterion p h0]
    · rw [← pow_mul, mul_comm, ← hst]
      exact ZMod.pow_card_sub_one_eq_one h0

theorem squares_primitive {F : Type} [Field F] {z : F} {s : Nat} (hz : IsPrimitiveRoot z (2 ^ s)) {k : Nat}
    (hk : k ≤ s) : IsPrimitiveRoot (z ^ 2 ^ (s - k)) (2 ^ k) := by
  refine hz.pow (by positivity) ?_
  rw [← pow_add]; congr 1; omega

end Verif.Groth16
