import Verif.Honk.BuildAcir

/-!
# Specification: the trace of a circuit

The selectors of the rows stand in the columns of the trace, behind the rows of the blocks before them, and the shifted wires are
the wires one row later.
-/

namespace Verif.Honk

variable {F : Type}

/-- The columns of the selectors. -/
def selectorCols : List Col :=
  [.qm, .qc, .ql, .qr, .qo, .q4, .qLookup, .qArith, .qDeltaRange, .qElliptic, .qMemory, .qNnf, .qPoseidon2External, .qPoseidon2Internal]

/-- The selectors of a row of the block `arithmetic` or `delta_range`. -/
def Gate.selector [Zero F] (g : Gate F) : Col → F
  | .qm => g.qm
  | .ql => g.q1
  | .qr => g.q2
  | .qo => g.q3
  | .q4 => g.q4
  | .qc => g.qc
  | .qArith => g.qArith
  | .qDeltaRange => g.qDelta
  | _ => 0

/-- The trace has the selectors of the circuit `t` in the rows of its gates, and the shifted wires. -/
structure IsTrace [Zero F] (t : Draft F) (lookup : List Row) (n : Nat) (table : Col → Nat → F) : Prop where
  arith : ∀ i g, t.arith[i]? = some g → ∀ c ∈ selectorCols, table c (1 + t.inputs.length + lookup.length + i) = g.selector c
  delta : ∀ i g, t.delta[i]? = some g → ∀ c ∈ selectorCols,
    table c (1 + t.inputs.length + lookup.length + t.arith.length + i) = g.selector c
  left : ∀ i, i + 1 < n → table .wlShift i = table .wl (i + 1)
  fourth : ∀ i, i + 1 < n → table .w4Shift i = table .w4 (i + 1)

end Verif.Honk
