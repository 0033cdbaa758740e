import Verif.Honk.BuildAcir
import Verif.Honk.Lookup
import Verif.Spec.HonkBuild

/-!
# The rest of the circuit and its columns

Models the part of `add_gates_to_ensure_all_polys_are_non_zero` that fills the blocks `lookup`, `elliptic`, `memory`, `nnf` and
`poseidon2_*` of `/repo/co-noir/co-builder/src/ultra_builder.rs`, the two tables of the dummy lookup of
`/repo/co-noir/co-builder/src/types/plookup.rs`, and the columns of the proving key that are known before the first challenge.  The
programs have no other lookups and no memory: these are the opcodes of `Draft.addOpcode`.
-/

namespace Verif.Honk

variable {F : Type} [Field F]

/-! ## The dummy lookup -/

/-- `slice_input_using_variable_bases`.  The code panics if the last slice is too large, which cannot happen here: the only input is 3,
and the bases are 2 and 2.  `/repo/co-noir/co-builder/src/types/plookup.rs:1277-1288` -/
def sliceInput : Nat → List Nat → List Nat
  | _, [] => []
  | x, b :: bs => x % b :: sliceInput (x / b) bs

/-- `get_value_from_key`.  `/repo/co-noir/co-builder/src/types/plookup.rs:224-226` -/
def dummyValue (id a b : Nat) : F := ((a * 3 + b * 4 + id * 0x1337 : Nat) : F)

/-- The identifiers `HONK_DUMMY_BASIC1_BB_ID` and `HONK_DUMMY_BASIC2_BB_ID`.  `/repo/co-noir/co-builder/src/types/plookup.rs:166-167` -/
def dummyIds : List Nat := [95, 96]

/-- `generate_honk_dummy_table`, with the gates that read from the table.  `/repo/co-noir/co-builder/src/types/plookup.rs:2106-2140` -/
def dummyTable (id index : Nat) (gates : List (F × F)) : LookupTable F where
  rows := (List.range 2).flatMap fun (i : Nat) => (List.range 2).map fun (j : Nat) => ((i : F), (j : F), dummyValue id i j)
  tableIndex := index
  useTwinKeys := true
  step := 2
  mapped := false
  gates := gates

/-- `column_1_step_sizes[1]` of the dummy table, and the same for the other columns: the quotient of the coefficients `2` and `1`.
`/repo/co-noir/co-builder/src/types/plookup.rs:501-513, 2686-2756` -/
def dummyStep : F := 2 * 1 * (1 : F)⁻¹

/-- The slices of the keys of the dummy lookup: both keys are 3.  `/repo/co-noir/co-builder/src/ultra_builder.rs:5229-5244` -/
def dummyKeys : List Nat := sliceInput 3 [2, 2]

/-- The sums that `get_lookup_accumulators` makes of the values of a column, from the last one.
`/repo/co-noir/co-builder/src/types/plookup.rs:1839-1868` -/
def accumulators (step : F) : List F → List F
  | [] => []
  | [x] => [x]
  | x :: y :: l => match accumulators step (y :: l) with
    | [] => [x]
    | z :: r => (x + step * z) :: z :: r

/-- The first and the second column of the dummy lookup.  `/repo/co-noir/co-builder/src/types/plookup.rs:1773-1794` -/
def dummyColumn1 : List F := accumulators dummyStep (dummyKeys.map fun k => (k : F))

/-- The third column of the dummy lookup.  `/repo/co-noir/co-builder/src/types/plookup.rs:1773-1794` -/
def dummyColumn3 : List F := accumulators dummyStep (List.zipWith (fun id k => dummyValue id k k) dummyIds dummyKeys)

/-- The variables of the dummy lookup, in the order in which they are made: the two keys, the value of the first gate, and the three
wires of the second gate.  `/repo/co-noir/co-builder/src/ultra_builder.rs:5229-5252, 4359-4369` -/
def dummyVars : List F := [3, 3, dummyColumn3.getD 0 0, dummyColumn1.getD 1 0, dummyColumn1.getD 1 0, dummyColumn3.getD 1 0]

/-- The two tables.  `/repo/co-noir/co-builder/src/ultra_builder.rs:4321-4339, 4372-4376` -/
def dummyTables : List (LookupTable F) :=
  List.zipWith (fun x k => dummyTable x.1 x.2 [((k : F), (k : F))]) dummyIds.zipIdx dummyKeys

/-- The wires of the two lookup gates; `base` is the first variable of the dummy lookup.
`/repo/co-noir/co-builder/src/ultra_builder.rs:4351-4402` -/
def lookupRows (zeroIdx base : Nat) : List Row :=
  [![base, base + 1, base + 2, zeroIdx], ![base + 3, base + 4, base + 5, zeroIdx]]

/-- The selectors of the two lookup gates.  `/repo/co-noir/co-builder/src/ultra_builder.rs:4383-4431` -/
def lookupSelectors : List (Col → F) :=
  [fun | .qLookup => 1 | .qo => ((0 : Nat) : F) | .qr => -dummyStep | .qm => -dummyStep | .qc => -dummyStep | _ => 0,
   fun | .qLookup => 1 | .qo => ((1 : Nat) : F) | _ => 0]

/-! ## The blocks without gates of the program -/

/-- The wires of the two gates of a block: the constant zero.  `/repo/co-noir/co-builder/src/ultra_builder.rs:5067-5400` -/
def fillerRows (zeroIdx : Nat) : List Row := [fun _ => zeroIdx, fun _ => zeroIdx]

/-- The selectors of the two gates of a block: only the selector of the block is one, and only in the first gate.
`/repo/co-noir/co-builder/src/ultra_builder.rs:5067-5400` -/
def fillerSelectors (q : Col) : List (Col → F) := [fun c => if c = q then 1 else 0, fun _ => 0]

/-- The selectors of the blocks.  `/repo/co-noir/co-builder/src/types/types.rs:157-189` -/
def fillerCols : List Col := [.qElliptic, .qMemory, .qNnf, .qPoseidon2External, .qPoseidon2Internal]

namespace Draft

/-- `create_circuit` with `finalize_circuit(true)`, as `createCircuit`, with the variables of the dummy lookup.  The second result is
the first of them.  `/repo/co-noir/co-builder/src/ultra_builder.rs:4046-4087, 4119-4161` -/
def createFull [DecidableEq F] (toNat : F → Nat) (ops : List (Acvm.Opcode F)) (inputs : List Nat) (witness : List F) :
    Except Err (Draft F × Nat) := do
  let af ← acirFormat ops
  let size := maxWitness inputs ops + 1
  check (witness = [] ∨ witness.length = size) "ACIR witness size does not match max witness index"
  let s ← init (if witness = [] then List.replicate size 0 else witness) inputs (witness = [])
  let s ← s.buildConstraints toNat af
  let s ← s.addFillers dummyVars
  let t ← s.processRanges toNat
  pure (t, s.vars.length - 6)

/-- The finished circuit with all its blocks.  `/repo/co-noir/co-builder/src/types/types.rs:157-189`, `get_tables_size`:
`/repo/co-noir/co-builder/src/ultra_builder.rs:1014-1021` -/
def full (t : Draft F) (base : Nat) : Builder F :=
  t.toBuilder (lookupRows t.zeroIdx base) (fillerCols.map fun _ => fillerRows t.zeroIdx) ((dummyTables (F := F)).map (·.rows.length)).sum

/-- The selectors of all rows, in the order of the blocks.  `/repo/co-noir/co-builder/src/ultra_builder.rs:2625-2638` for the public
inputs. -/
def allSelectors (t : Draft F) : List (Col → F) :=
  t.inputs.map (fun _ _ => 0) ++ lookupSelectors ++ t.arith.map Gate.selector ++ t.delta.map Gate.selector ++
    fillerCols.flatMap fillerSelectors

/-- A selector in the rows of the trace.  The blocks follow one another from the row 1.
`/repo/co-noir/co-builder/src/keys/plain_proving_key.rs:168-181` -/
def selectorAt (t : Draft F) (c : Col) (i : Nat) : F := if i = 0 then 0 else ((t.allSelectors[i - 1]?).map (· c)).getD 0

end Draft

/-- The columns of the proving key: the selectors, the tables, the columns of the permutation, the wires, the counts and the tags.  The
columns of the Oink prover are not known yet.  The shifted columns begin with the second row and end with zero.
`/repo/co-noir/co-builder/src/keys/plain_proving_key.rs:46-75`, `/repo/co-noir/co-noir-common/src/polynomials/polynomial.rs:170-176` -/
def keyTable (t : Draft F) (key : Key F) (entries : Nat → F × F × F × F) (r : Reads F) : Col → Nat → F
  | .sigma1 => key.sigma 0
  | .sigma2 => key.sigma 1
  | .sigma3 => key.sigma 2
  | .sigma4 => key.sigma 3
  | .id1 => key.id 0
  | .id2 => key.id 1
  | .id3 => key.id 2
  | .id4 => key.id 3
  | .table1 => fun i => (entries i).1
  | .table2 => fun i => (entries i).2.1
  | .table3 => fun i => (entries i).2.2.1
  | .table4 => fun i => (entries i).2.2.2
  | .lagrangeFirst => key.lagrangeFirst
  | .lagrangeLast => key.lagrangeLast
  | .wl => key.wires 0
  | .wr => key.wires 1
  | .wo => key.wires 2
  | .w4 => key.wires 3
  | .wlShift => fun i => if i + 1 < key.size then key.wires 0 (i + 1) else 0
  | .wrShift => fun i => if i + 1 < key.size then key.wires 1 (i + 1) else 0
  | .woShift => fun i => if i + 1 < key.size then key.wires 2 (i + 1) else 0
  | .w4Shift => fun i => if i + 1 < key.size then key.wires 3 (i + 1) else 0
  | .lookupReadCounts => r.counts
  | .lookupReadTags => r.tags
  | .zPerm | .zPermShift | .lookupInverses => fun _ => 0
  | c => t.selectorAt c

end Verif.Honk
