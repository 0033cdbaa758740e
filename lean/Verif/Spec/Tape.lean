import Verif.Rep3.State
import Verif.Rep3.Share
import Mathlib.SetTheory.Cardinal.Finite

/-!
# Specification: ideal random tapes

For privacy statements the generator is replaced by a finite tape of values; "every tape is equally
likely" turns probabilities into counts of tapes.
-/

namespace Verif

/-- A tape of values is consumed from the front (an empty tape yields a fixed value). -/
@[reducible] def tapeSample (α : Type) [Inhabited α] : Sample (List α) α where
  sample
    | [] => (default, [])
    | x :: xs => (x, xs)

@[simp] theorem tapeSample_cons {α : Type} [Inhabited α] (x : α) (xs : List α) :
    @Sample.sample _ _ (tapeSample α) (x :: xs) = (x, xs) := rfl

/-- Number of tapes of length `n` with property `P`. -/
noncomputable def countTapes {α : Type} (n : Nat) (P : List α → Prop) : Nat :=
  Nat.card {t : List α // t.length = n ∧ P t}

end Verif
