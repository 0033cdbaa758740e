import Verif.Spec.Honk
import Mathlib.Data.List.Dedup
import Mathlib.Data.Fin.VecNotation

/-!
# Specification: what the copy constraints of an UltraHonk circuit say

A finalised circuit is a list of rows.  Each row names four variables, one for each wire.  Variables that have been
asserted equal have the same real variable.  The assignment of a circuit gives each real variable a value, and the wires
carry these values.  Range constraints and memory use tags: the values of the real variables with a tag are the values of
the real variables with another tag, in some order.  The permutation `tau` says which tag goes to which.
-/

namespace Verif.Honk

/-- A row of a block: the variables of the four wires. -/
abbrev Row := Fin 4 → Nat

/-- What the proving key reads from a finalised circuit.  The rows are kept in blocks; the block of the public inputs is the
first one and is given by the public inputs.  Selectors, tables and memory are not in here. -/
structure Builder (F : Type) where
  /-- the variables that are public -/
  inputs : List Nat
  /-- the variable of the constant zero -/
  zeroIdx : Nat
  /-- the blocks after the block of the public inputs, in the order of the trace -/
  gates : List (List Row)
  /-- the values of the real variables (those of other variables are not used) -/
  vars : List F
  /-- the real variable of a variable -/
  realIndex : List Nat
  /-- the tag of a real variable -/
  tags : List Nat
  /-- the permutation of the tags -/
  tau : List (Nat × Nat)
  /-- the number of rows of the lookup tables -/
  tablesSize : Nat

namespace Builder

variable {F : Type} (c : Builder F)

/-- All rows of a circuit.  The row `i` of the list is the row `i + 1` of the trace: the row `0` of the trace is empty. -/
def rows : List Row := (c.inputs.map fun v => ![v, v, c.zeroIdx, c.zeroIdx]) ++ c.gates.flatten

/-- The variable of a wire in a row of the trace. -/
def at? (j : Fin 4) (r : Nat) : Option Nat := if r = 0 then none else (c.rows[r - 1]?).map (· j)

/-- The real variable of a variable. -/
def real (v : Nat) : Nat := c.realIndex.getD v 0

/-- The real variables that occur in the trace. -/
def used : List Nat := (c.rows.flatMap fun row => (List.ofFn row).map c.real).dedup

/-- The tag of a real variable. -/
def tag (v : Nat) : Nat := c.tags.getD v 0

/-- The image of a tag. -/
def tauOf (t : Nat) : Nat := (c.tau.lookup t).getD 0

end Builder

/-- The wires carry the values `val` of the real variables, the public inputs are the values of the public variables, and the
tagged values are permuted by `tau`. -/
structure Assigned {F : Type} (c : Builder F) (w : Fin 4 → Nat → F) (pub : List F) (val : Nat → F) : Prop where
  wires : ∀ j r v, c.at? j r = some v → w j r = val (c.real v)
  publics : c.inputs.map (fun v => val (c.real v)) = pub
  tags : (c.used.map fun v => (val v, c.tag v)).Perm (c.used.map fun v => (val v, c.tauOf (c.tag v)))

end Verif.Honk
