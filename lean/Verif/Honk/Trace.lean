import Verif.Spec.HonkCircuit
import Verif.Honk.Sumcheck

/-!
# The trace of an UltraHonk circuit and its permutation polynomials

Models `/repo/co-noir/co-builder/src/keys/plain_proving_key.rs`: the part of `create_prover_instance` that places the blocks in
the trace, fills the wires, collects the copy cycles and turns them into the columns `sigma` and `id`.  Selectors, memory
records and lookup tables are not modelled here.

Columns are functions of the row.  The code keeps vectors of the length of the circuit and panics outside: the model has these
panics where the loops write, and the columns are zero where nothing is written.
-/

namespace Verif.Honk

variable {F : Type}

/-- A place in the trace: wire and row (`CycleNode`).  `/repo/co-noir/co-builder/src/types/types.rs:729-732` -/
abbrev Cell := Fin 4 × Nat

namespace Builder

/-- `populate_public_inputs_block`: the public input is in the first two wires.
`/repo/co-noir/co-builder/src/ultra_builder.rs:2625-2638` -/
def publicBlock (c : Builder F) : List Row := c.inputs.map fun v => ![v, v, c.zeroIdx, c.zeroIdx]

/-- `UltraTraceBlocks::get`: the blocks in the order of the trace.  `/repo/co-noir/co-builder/src/types/types.rs:157-189` -/
def blocks (c : Builder F) : List (List Row) := c.publicBlock :: c.gates

/-- The loop of `compute_offsets`.  `/repo/co-noir/co-builder/src/types/types.rs:247-253` -/
def offsets : Nat → List (List Row) → List (Nat × List Row)
  | _, [] => []
  | o, b :: bs => (o, b) :: offsets (o + b.length) bs

/-- `compute_offsets`: the first block starts at the row 1.  `/repo/co-noir/co-builder/src/types/types.rs:247-253` -/
def placed (c : Builder F) : List (Nat × List Row) := offsets 1 c.blocks

/-- `pub_inputs.trace_offset`.  `/repo/co-noir/co-builder/src/keys/plain_proving_key.rs:65-66` -/
def publicOffset (c : Builder F) : Nat := (c.placed.head?.map (·.1)).getD 0

/-- `compute_dyadic_size`, with four rows that are kept free and the row of zeros.
`/repo/co-noir/co-builder/src/ultra_builder.rs:2607-2623, 1869-1875` -/
def dyadicSize (c : Builder F) : Nat :=
  let gates := 4 + 1 + max c.tablesSize (c.blocks.map List.length).sum
  let log := Nat.log 2 gates
  if 2 ^ log ≠ gates then 2 ^ (log + 1) else 2 ^ log

/-- The last row of the trace that is used.  `/repo/co-noir/co-builder/src/keys/plain_proving_key.rs:38-43` -/
def finalActive (c : Builder F) : Nat :=
  c.placed.foldl (fun last b => if b.2.isEmpty then last else b.1 + b.2.length - 1) 0

end Builder

/-- `ActiveRegionData`.  `/repo/co-noir/co-noir-common/src/keys/types.rs:4-8` -/
structure ActiveRegion where
  ranges : List (Nat × Nat)
  idxs : List Nat
  currentEnd : Nat

/-- `add_range`.  `/repo/co-noir/co-noir-common/src/keys/types.rs:18-27` -/
def ActiveRegion.addRange (a : ActiveRegion) (start stop : Nat) : Except Err ActiveRegion :=
  if start ≥ a.currentEnd then
    .ok ⟨a.ranges ++ [(start, stop)], a.idxs ++ List.range' start (stop - start), stop⟩
  else .error (.panic "Ranges should be non-overlapping and increasing")

/-- The active region of the trace.  `/repo/co-noir/co-builder/src/keys/plain_proving_key.rs:136-141` -/
def activeRegion (c : Builder F) : Except Err ActiveRegion :=
  c.placed.foldlM (fun a b => if 0 < b.2.length then a.addRange b.1 (b.1 + b.2.length) else .ok a) ⟨[], [], 0⟩

/-- The wires and the copy cycles while the trace is filled. -/
structure Trace (F : Type) where
  wires : Cell → F
  cycles : List (List Cell)

/-- The places of the trace and their variables, in the order of the loops over the blocks, the rows and the wires.
`/repo/co-noir/co-builder/src/keys/plain_proving_key.rs:136-153` -/
def cells (placed : List (Nat × List Row)) : List (Cell × Nat) :=
  placed.flatMap fun b => (b.2.zipIdx b.1).flatMap fun row => (List.finRange 4).map fun j => ((j, row.2), row.1 j)

/-- One step of the loops: the value of the variable goes to the wire, and the place to the cycle of the real variable.
`/repo/co-noir/co-builder/src/keys/plain_proving_key.rs:148-165`, `get_variable`:
`/repo/co-noir/co-builder/src/ultra_builder.rs:1105-1108` -/
def populateCell (c : Builder F) (n : Nat) (st : Trace F) (x : Cell × Nat) : Except Err (Trace F) := do
  let real ← index c.realIndex x.2
  if c.vars.length ≤ x.2 then throw (.panic "assertion failed")
  if n ≤ x.1.2 then throw (.panic "index out of bounds")
  let value ← index c.vars real
  let cycle ← index st.cycles real
  pure ⟨Function.update st.wires x.1 value, st.cycles.set real (cycle ++ [x.1])⟩

/-- `populate_wires_and_selectors_and_compute_copy_cycles`, without the selectors.
`/repo/co-noir/co-builder/src/keys/plain_proving_key.rs:123-184` -/
def populate [Zero F] (c : Builder F) (n : Nat) : Except Err (Trace F) :=
  (cells c.placed).foldlM (populateCell c n) ⟨fun _ => 0, List.replicate c.vars.length []⟩

/-! ## The permutation -/

/-- `PermutationSubgroupElement`.  `/repo/co-noir/co-builder/src/types/types.rs:754-775` -/
structure Target where
  row : Nat
  col : Nat
  isPublic : Bool
  isTag : Bool

/-- `PermutationMapping`.  `/repo/co-noir/co-builder/src/types/types.rs:754-775` -/
structure Mapping where
  sigmas : Cell → Target
  ids : Cell → Target

/-- `PermutationMapping::new`: every place points to itself.  `/repo/co-noir/co-builder/src/types/types.rs:754-775` -/
def Mapping.new : Mapping := ⟨fun x => ⟨x.2, x.1, false, false⟩, fun x => ⟨x.2, x.1, false, false⟩⟩

/-- All nodes but the last point to the next node.  `/repo/co-noir/co-builder/src/keys/plain_proving_key.rs:257-268` -/
def link (sigmas : Cell → Target) (cycle : List Cell) : Cell → Target :=
  (cycle.zip cycle.tail).foldl
    (fun s x => Function.update s x.1 { s x.1 with row := x.2.2, col := x.2.1 }) sigmas

/-- The treatment of one cycle.  `/repo/co-noir/co-builder/src/keys/plain_proving_key.rs:230-269` -/
def addCycle (c : Builder F) (m : Mapping) (x : List Cell × Nat) : Except Err Mapping :=
  match x.1 with
  | [] => .ok m
  | first :: rest => do
    let last := (first :: rest).getLast (by simp)
    let tag ← index c.tags x.2
    let image ← match c.tau.lookup tag with
      | some t => Except.ok t
      | none => .error (.panic "tau must be present")
    let ids := Function.update m.ids first { m.ids first with isTag := true, row := tag }
    let sigmas := Function.update m.sigmas last { m.sigmas last with isTag := true, row := image }
    pure ⟨link sigmas (first :: rest), ids⟩

/-- The rows of the public inputs.  `/repo/co-noir/co-builder/src/keys/plain_proving_key.rs:271-286` -/
def addPublic (c : Builder F) (m : Mapping) : Mapping :=
  (List.range c.inputs.length).foldl
    (fun m i => { m with
      sigmas := Function.update m.sigmas (0, i + c.publicOffset)
        { m.sigmas (0, i + c.publicOffset) with row := i + c.publicOffset, col := 0, isPublic := true } }) m

/-- `compute_permutation_mapping`.  `/repo/co-noir/co-builder/src/keys/plain_proving_key.rs:215-289` -/
def permutationMapping (c : Builder F) (cycles : List (List Cell)) : Except Err Mapping := do
  let m ← cycles.zipIdx.foldlM (addCycle c) Mapping.new
  pure (addPublic c m)

/-- `PERMUTATION_ARGUMENT_VALUE_SEPARATOR`.  `/repo/co-noir/co-noir-common/src/constants.rs:78` -/
def separator : Nat := 2 ^ 28

/-- The field element of a place.  The numbers are 32-bit in the code and not bounded here.
`/repo/co-noir/co-builder/src/keys/plain_proving_key.rs:309-342` -/
def Target.value [Ring F] (t : Target) : F :=
  if t.isPublic then -((t.row + 1 + separator * t.col : Nat) : F)
  else if t.isTag then ((separator * 4 + t.row : Nat) : F)
  else ((t.row + separator * t.col : Nat) : F)

/-- `compute_honk_style_permutation_lagrange_polynomials_from_mapping`: only the active rows are written.
`/repo/co-noir/co-builder/src/keys/plain_proving_key.rs:291-347` -/
def permutationColumns [Ring F] (n : Nat) (active : ActiveRegion) (m : Cell → Target) :
    Except Err (Fin 4 → Nat → F) :=
  if n < separator then .ok fun j i => if i ∈ active.idxs then (m (j, i)).value else 0
  else .error (.panic "assertion failed")

/-- The proving key, as far as the permutation argument goes. -/
structure Key (F : Type) where
  size : Nat
  finalActive : Nat
  active : ActiveRegion
  wires : Fin 4 → Nat → F
  sigma : Fin 4 → Nat → F
  id : Fin 4 → Nat → F
  lagrangeFirst : Nat → F
  lagrangeLast : Nat → F
  publicInputs : List F
  publicOffset : Nat

/-- `create_prover_instance` with `populate_trace` and `compute_permutation_argument_polynomials`.
`/repo/co-noir/co-builder/src/keys/plain_proving_key.rs:20-78, 100-121, 186-213` -/
def createKey [Ring F] (c : Builder F) : Except Err (Key F) := do
  let n := c.dyadicSize
  let active ← activeRegion c
  let trace ← populate c n
  let m ← permutationMapping c trace.cycles
  let sigma ← permutationColumns n active m.sigmas
  let id ← permutationColumns n active m.ids
  if n ≤ c.finalActive then throw (.panic "index out of bounds")
  pure { size := n, finalActive := c.finalActive, active, wires := fun j i => trace.wires (j, i), sigma, id,
         lagrangeFirst := Function.update (fun _ => 0) 0 1,
         lagrangeLast := Function.update (fun _ => 0) c.finalActive 1,
         publicInputs := (List.range c.publicBlock.length).map fun i => trace.wires (1, i + c.publicOffset),
         publicOffset := c.publicOffset }

end Verif.Honk
