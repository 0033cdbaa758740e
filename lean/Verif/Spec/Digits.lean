import Mathlib.Data.List.Basic

/-!
# Digits of a number

Independent of the circuits that compute them.
-/

namespace Verif

/-- The number with digits `qs` in base `b`, least significant digit first. -/
def ofDigits (b : Nat) : List Nat → Nat
  | [] => 0
  | q :: qs => q + b * ofDigits b qs

/-- `qs` are the `n` lowest digits of `x` in base `b`, and there are no others. -/
structure AreDigits (b n x : Nat) (qs : List Nat) : Prop where
  length : qs.length = n
  lt : ∀ q ∈ qs, q < b
  value : ofDigits b qs = x

/-- Digits are unique, so `AreDigits` determines its list. -/
theorem AreDigits.unique {b n x : Nat} {qs rs : List Nat} (h : AreDigits b n x qs) (h' : AreDigits b n x rs) :
    qs = rs := by
  obtain ⟨hl, hlt, hv⟩ := h
  obtain ⟨hl', hlt', hv'⟩ := h'
  induction qs generalizing rs n x with
  | nil => subst hl; cases rs with
    | nil => rfl
    | cons _ _ => simp at hl'
  | cons q qs ih =>
    cases rs with
    | nil => subst hl'; simp at hl
    | cons r rs =>
      simp only [ofDigits] at hv hv'
      have hq := hlt q (by simp)
      have hr := hlt' r (by simp)
      have h1 : q = r := by
        have a := congrArg (· % b) hv
        have c := congrArg (· % b) hv'
        simp only [Nat.add_mul_mod_self_left] at a c
        rw [Nat.mod_eq_of_lt hq] at a
        rw [Nat.mod_eq_of_lt hr] at c
        omega
      subst h1
      have h2 : b * ofDigits b qs = b * ofDigits b rs := by omega
      have hb : 0 < b := by omega
      have h3 := Nat.eq_of_mul_eq_mul_left hb h2
      rw [ih (x := ofDigits b qs) (n := qs.length) (rs := rs) rfl (fun q h => hlt q (by simp [h])) rfl
        (by simp at hl hl'; omega) (fun q h => hlt' q (by simp [h])) h3.symm]

end Verif
