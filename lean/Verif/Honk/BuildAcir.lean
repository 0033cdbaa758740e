import Verif.Honk.Build

/-!
# The circuit of a Noir program

Models the conversion of opcodes to gates in `/repo/co-noir/co-builder/src/acir_format.rs` and `create_circuit` in
`/repo/co-noir/co-builder/src/ultra_builder.rs`, for the opcodes `AssertZero` and `RANGE` and the prover in the clear.  Programs with
other opcodes are an error of the model.

`finalize_circuit` adds some gates that only keep the columns from being zero.  Their rows in the blocks other than `arithmetic` and
`delta_range`, and the values of the variables they add, are a parameter.
-/

namespace Verif.Honk

open Acvm (Expression Input Opcode)

variable {F : Type} [CommRing F] [DecidableEq F]

namespace Draft

/-! ## From opcodes to gates -/

/-- Adds a term to the map of linear terms, which is ordered by the witness.  `/repo/co-noir/co-builder/src/acir_format.rs:939-947` -/
def insertTerm (w : Nat) (q : F) : List (Nat × F) → List (Nat × F)
  | [] => [(w, q)]
  | x :: xs => if w < x.1 then (w, q) :: x :: xs else if x.1 < w then x :: insertTerm w q xs else (w, x.2 + q) :: xs

/-- `process_linear_terms`.  `/repo/co-noir/co-builder/src/acir_format.rs:936-950` -/
def linearTerms (e : Expression F) : List (Nat × F) := e.linear.foldl (fun m t => insertTerm t.2 t.1 m) []

/-- `remove` of a map.  The coefficient is zero if the witness is not in the map: the code adds the coefficient only if there is one. -/
def takeTerm (m : List (Nat × F)) (w : Nat) : F × List (Nat × F) := ((m.lookup w).getD 0, m.filter fun x => x.1 ≠ w)

/-- `add_linear_term_and_erase` behind the test that there is a term left: the first term, if there is one.
`/repo/co-noir/co-builder/src/acir_format.rs:476-490` -/
def popTerm : List (Nat × F) → (Option Nat × F) × List (Nat × F)
  | [] => ((none, 0), [])
  | x :: xs => ((some x.1, x.2), xs)

/-- Step 1 of `split_into_mul_quad_gates`.  `/repo/co-noir/co-builder/src/acir_format.rs:503-531` -/
def mulQuads : List (F × Nat × Nat) → List (Nat × F) → List (Quad F (Option Nat)) × List (Nat × F)
  | [], m => ([], m)
  | t :: ts, m =>
    let (qa, m) := takeTerm m t.2.1
    let (qb, m) := takeTerm m t.2.2
    let (qs, m) := mulQuads ts m
    (⟨some t.2.1, some t.2.2, none, none, t.1, qa, qb, 0, 0, 0⟩ :: qs, m)

/-- Step 2: linear terms on the wires that are free.  `/repo/co-noir/co-builder/src/acir_format.rs:533-552` -/
def fillQuads (qc : F) : Bool → List (Quad F (Option Nat)) → List (Nat × F) → List (Quad F (Option Nat)) × List (Nat × F)
  | _, [], m => ([], m)
  | isFirst, q :: qs, m =>
    let (c, m) := popTerm m
    let q := { q with c := c.1, qc := q.qc + c.2 }
    if isFirst then
      let (d, m) := popTerm m
      let (qs, m) := fillQuads qc false qs m
      ({ q with d := d.1, qd := q.qd + d.2, const := qc } :: qs, m)
    else
      let (qs, m) := fillQuads qc false qs m
      (q :: qs, m)

/-- Step 3: gates for the terms that are left, at most as many as there are terms (`fuel`).
`/repo/co-noir/co-builder/src/acir_format.rs:554-590` -/
def restQuads (qc : F) : Nat → Bool → List (Nat × F) → List (Quad F (Option Nat))
  | 0, _, _ => []
  | _, _, [] => []
  | fuel + 1, isFirst, x :: xs =>
    let (b, m) := popTerm xs
    let (c, m) := popTerm m
    let q : Quad F (Option Nat) := ⟨some x.1, b.1, c.1, none, 0, x.2, b.2, c.2, 0, 0⟩
    if isFirst then
      let (d, m) := popTerm m
      { q with d := d.1, qd := d.2, const := qc } :: restQuads qc fuel false m
    else q :: restQuads qc fuel false m

/-- `split_into_mul_quad_gates`.  `/repo/co-noir/co-builder/src/acir_format.rs:472-595` -/
def splitQuads (e : Expression F) (m : List (Nat × F)) : Except Err (List (Quad F (Option Nat))) := do
  let (qs, m) := mulQuads e.mulTerms m
  let (qs, m) := fillQuads e.qc true qs m
  let qs := qs ++ restQuads e.qc m.length qs.isEmpty m
  check (qs ≠ []) "split_into_mul_quad_gates: resulted in zero gates"
  pure qs

/-- `is_single_arithmetic_gate`.  `/repo/co-noir/co-builder/src/acir_format.rs:952-1005` -/
def isSingle (e : Expression F) (m : List (Nat × F)) : Bool :=
  if 4 < m.length then false
  else match e.mulTerms with
    | [] => m.length ≤ 4
    | [t] =>
      let has (w : Nat) : Bool := m.any (·.1 = w)
      let count :=
        if t.2.1 ≠ t.2.2 then (2 + m.length) - (if has t.2.1 then 1 else 0) - (if has t.2.2 then 1 else 0)
        else (2 + m.length) - if has t.2.1 then 1 else 0
      count ≤ 4
    | _ => false

/-- `is_zero_gate`.  `/repo/co-noir/co-builder/src/acir_format.rs:602-609` -/
def Quad.isZero {ι : Type} (q : Quad F ι) : Bool := q.mul = 0 ∧ q.qa = 0 ∧ q.qb = 0 ∧ q.qc = 0 ∧ q.qd = 0 ∧ q.const = 0

/-- `AcirFormat`, the fields that are used here.  `/repo/co-noir/co-builder/src/acir_format.rs:83-118` -/
structure AcirFormat (F : Type) where
  quads : List (Quad F (Option Nat))
  bigQuads : List (List (Quad F (Option Nat)))
  ranges : List (Nat × Nat)

/-- `assert_zero_to_quad_constraints`.  `/repo/co-noir/co-builder/src/acir_format.rs:597-642` -/
def addExpression (af : AcirFormat F) (e : Expression F) : Except Err (AcirFormat F) := do
  let m := linearTerms e
  let qs ← splitQuads e m
  check (qs.all fun q => !q.isZero) "produced an arithmetic zero gate"
  if isSingle e m then
    match qs with
    | [q] => pure { af with quads := af.quads ++ [q] }
    | _ => .error (.panic "expected a single gate")
  else
    check (1 < qs.length) "expected multiple gates but found one"
    pure { af with bigQuads := af.bigQuads ++ [qs] }

/-- One opcode of `circuit_serde_to_acir_format`.  The input of `RANGE` must be a witness: `to_witness` of the crate `acir` panics on a
constant.  `/repo/co-noir/co-builder/src/acir_format.rs:422-459, 693-701` -/
def addOpcode (af : AcirFormat F) : Opcode F → Except Err (AcirFormat F)
  | .assertZero e => addExpression af e
  | .range (.witness w) bits => .ok { af with ranges := af.ranges ++ [(w, bits)] }
  | .range (.constant _) _ => .error (.panic "to_witness")
  | .call => .error (.panic "Call opcode is not supported")
  | _ => .error (.err "not modelled")

/-- `circuit_serde_to_acir_format`.  `/repo/co-noir/co-builder/src/acir_format.rs:397-469` -/
def acirFormat (ops : List (Opcode F)) : Except Err (AcirFormat F) := ops.foldlM addOpcode ⟨[], [], []⟩

/-- The witnesses of an opcode.  `/repo/co-noir/co-builder/src/acir_format.rs:128-168` -/
def witnessesOf : Opcode F → List Nat
  | .assertZero e => (e.mulTerms.flatMap fun t => [t.2.1, t.2.2]) ++ e.linear.map (·.2)
  | .range (.witness w) _ => [w]
  | _ => []

/-- `max_witness_index`.  `/repo/co-noir/co-builder/src/acir_format.rs:121-168, 408-418` -/
def maxWitness (inputs : List Nat) (ops : List (Opcode F)) : Nat := (inputs ++ ops.flatMap witnessesOf).foldl max 0

/-! ## Gates of the constraints -/

/-- `replace_and_check_zero_scaling`.  `/repo/co-noir/co-builder/src/ultra_builder.rs:406-415` -/
def resolve (s : Draft F) (i : Option Nat) (q : F) : Except Err Nat :=
  match i with
  | some i => .ok i
  | none => do check (q = 0) "gate with IS_CONSTANT witness index has non-zero scaling"; pure s.zeroIdx

/-- `set_zero_idx`.  `/repo/co-noir/co-builder/src/ultra_builder.rs:395-404` -/
def setZero (s : Draft F) (q : Quad F (Option Nat)) : Except Err (Quad F Nat) :=
  match q.a with
  | none => .error (.panic "gate cannot have IS_CONSTANT for witness a")
  | some a => do
    let b ← s.resolve q.b q.qb
    let c ← s.resolve q.c q.qc
    let d ← s.resolve q.d q.qd
    pure ⟨a, b, c, d, q.mul, q.qa, q.qb, q.qc, q.qd, q.const⟩

/-- `create_quad_constraint`.  `/repo/co-noir/co-builder/src/ultra_builder.rs:314-319` -/
def quadConstraint (s : Draft F) (q : Quad F (Option Nat)) : Except Err (Draft F) := do
  let q ← s.setZero q
  s.bigGate q false

/-- `create_big_quad_constraint`: each gate but the last one passes what it adds up to on to the fourth wire of the next gate.  In the
code all products are computed before the loop.  `/repo/co-noir/co-builder/src/ultra_builder.rs:321-393` -/
def bigQuadConstraint (s : Draft F) : List (Quad F (Option Nat)) → Except Err (Draft F)
  | [] => .error (.panic "attempt to subtract with overflow")
  | [q] => s.quadConstraint q
  | q :: q' :: qs => do
    let g ← s.setZero q
    let s ← s.bigGate g true
    let a ← s.getVariable g.a
    let b ← s.getVariable g.b
    let c ← s.getVariable g.c
    let d ← s.getVariable g.d
    let x := -(g.const + g.mul * (a * b) + g.qa * a + g.qb * b + g.qc * c + g.qd * d)
    (s.addVariable x).bigQuadConstraint ({ q' with d := some s.vars.length, qd := -1 } :: qs)
termination_by l => l.length

/-- `add_default_to_public_inputs`, with `PUBLIC_INPUTS_SIZE` variables.  `/repo/co-noir/co-builder/src/ultra_builder.rs:1040-1048`,
`/repo/co-noir/co-noir-common/src/constants.rs:25` -/
def addDefaultInputs (s : Draft F) : Except Err (Draft F) :=
  (List.range 8).foldlM (fun s _ => (s.addPublicVariable 0).fixWitness s.vars.length 0) s

/-- `build_constraints`.  `/repo/co-noir/co-builder/src/ultra_builder.rs:4163-4303` -/
def buildConstraints (toNat : F → Nat) (s : Draft F) (af : AcirFormat F) : Except Err (Draft F) := do
  let s ← af.quads.foldlM quadConstraint s
  let s ← af.bigQuads.foldlM bigQuadConstraint s
  let s ← af.ranges.foldlM (fun s r => s.dyadicRange toNat r.1 r.2) s
  s.addDefaultInputs

/-- The part of `add_gates_to_ensure_all_polys_are_non_zero` in the blocks `arithmetic` and `delta_range`.  The variables `extra` are
those of the lookup gates.  `/repo/co-noir/co-builder/src/ultra_builder.rs:4970-5250` -/
def addFillers (s : Draft F) (extra : List F) : Except Err (Draft F) := do
  let zeros : Row := fun _ => s.zeroIdx
  let s := s.pushArith ⟨zeros, 1, 1, 1, 1, 1, 0, 0, 0⟩
  let s := s.pushDelta ⟨zeros, 0, 0, 0, 0, 0, 0, 0, 1⟩
  let s := s.pushDelta (freeGate zeros)
  let (s, one) ← s.putConstant 1
  let s ← s.bigGate ⟨s.zeroIdx, s.zeroIdx, s.zeroIdx, one, 0, 0, 0, 0, 1, -1⟩ false
  pure (extra.foldl addVariable s)

/-- `init`.  The gate of the constant zero is made while `zero_idx` is still 0.
`/repo/co-noir/co-builder/src/ultra_builder.rs:3974-3999` -/
def init (witness : List F) (inputs : List Nat) (vkMode : Bool) : Except Err (Draft F) := do
  let s := { witness.foldl addVariable (empty vkMode) with inputs := inputs }
  let (s, i) ← s.putConstant 0
  pure { s with zeroIdx := i, tau := (0, 0) :: s.tau }

/-- `create_circuit` with `finalize_circuit(true)`.  Without a witness the circuit is made for the verification key.  `inputs` are the
public parameters and return values.  `/repo/co-noir/co-builder/src/ultra_builder.rs:4046-4087, 4119-4161` -/
def createCircuit (toNat : F → Nat) (ops : List (Opcode F)) (inputs : List Nat) (witness extra : List F) : Except Err (Draft F) := do
  let af ← acirFormat ops
  let size := maxWitness inputs ops + 1
  check (witness = [] ∨ witness.length = size) "ACIR witness size does not match max witness index"
  let s ← init (if witness = [] then List.replicate size 0 else witness) inputs (witness = [])
  let s ← s.buildConstraints toNat af
  let s ← s.addFillers extra
  s.processRanges toNat

/-- The finished circuit: the blocks in the order of the trace, with the rows of the other blocks.
`/repo/co-noir/co-builder/src/types/types.rs:157-189` -/
def toBuilder (s : Draft F) (lookup : List Row) (others : List (List Row)) (tablesSize : Nat) : Builder F where
  inputs := s.inputs
  zeroIdx := s.zeroIdx
  gates := lookup :: s.arith.map (·.row) :: s.delta.map (·.row) :: others
  vars := s.vars
  realIndex := s.real
  tags := s.tags
  tau := s.tau
  tablesSize := tablesSize

end Draft

end Verif.Honk
