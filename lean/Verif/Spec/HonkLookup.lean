import Verif.Spec.Honk

/-!
# Specification: what a lookup gate says
-/

namespace Verif.Honk

variable {F : Type} [Field F]

/-- What a row looks up: three values and the number of the table. -/
def lookedUp (table : Col → Nat → F) (i : Nat) : F × F × F × F :=
  (table .wl i + table .qr i * table .wlShift i, table .wr i + table .qm i * table .wrShift i,
    table .wo i + table .qc i * table .woShift i, table .qo i)

/-- The entry of the lookup tables in a row. -/
def entry (table : Col → Nat → F) (i : Nat) : F × F × F × F := (table .table1 i, table .table2 i, table .table3 i, table .table4 i)

/-- The three lookup relations hold. -/
structure LookupRelations (p : Params F) (n : Nat) (table : Col → Nat → F) : Prop where
  inverses : ∀ i < n, Subrel.lookup0.value F p (fun c => table c i) = 0
  tags : ∀ i < n, Subrel.lookup2.value F p (fun c => table c i) = 0
  sum : ∑ i ∈ Finset.range n, Subrel.lookup1.value F p (fun c => table c i) = 0

end Verif.Honk
