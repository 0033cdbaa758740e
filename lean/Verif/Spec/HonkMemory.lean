import Mathlib.Algebra.Field.Defs
import Mathlib.Algebra.BigOperators.Group.List.Basic

/-!
# Specification: memory records in the fourth wire
-/

namespace Verif.Honk

/-- The challenges of the memory records. -/
structure Eta (F : Type) where
  one : F
  two : F
  three : F

/-- The fourth wire with the given records, which are rows with a flag: the combination of the other three wires and the flag is
added to the row of each record. -/
def withRecords {F : Type} [Field F] (η : Eta F) (w : Fin 4 → Nat → F) (records : List (Nat × F)) (row : Nat) : F :=
  w 3 row + ((records.filter fun r => decide (r.1 = row)).map fun r =>
    w 0 row * η.one + w 1 row * η.two + w 2 row * η.three + r.2).sum

end Verif.Honk
