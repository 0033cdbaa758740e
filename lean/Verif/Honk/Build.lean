import Verif.Honk.Trace
import Verif.CoNoir.Acvm
import Mathlib.Data.List.Sort
import Mathlib.Data.Nat.Log

/-!
# Building an UltraHonk circuit

Models the part of `/repo/co-noir/co-builder/src/ultra_builder.rs` that makes variables, arithmetic gates, copy constraints and range
constraints, for the prover in the clear (`UltraCircuitBuilder`), and of `/repo/co-noir/co-builder/src/acir_format.rs` that turns
opcodes into gates.

Simplifications: the numbers are not bounded (`u32` and `u64` in the code).  The indices `REAL_VARIABLE`, `FIRST_VARIABLE_IN_CLASS` and
`u32::MAX` that stand for no variable are `none`.  The maps (`BTreeMap`) are lists; `rangeLists` is in the order of the map.  The
consistency checks of the selectors (`debug_assert`) and the counter of the gates are left out.  The conversion of a field element
to an integer is a parameter `toNat`.
-/

namespace Verif.Honk

open Acvm (Expression Input Opcode)

variable {F : Type}

/-- A row of the block `arithmetic` or `delta_range` with its selectors.  The selectors that are not listed are zero.
`/repo/co-noir/co-builder/src/types/types.rs:202-208` -/
structure Gate (F : Type) where
  row : Row
  qm : F
  q1 : F
  q2 : F
  q3 : F
  q4 : F
  qc : F
  qArith : F
  qDelta : F

/-- `RangeList`.  `/repo/co-noir/co-builder/src/types/types.rs:633-638` -/
structure RangeList where
  target : Nat
  tag : Nat
  tau : Nat
  vars : List Nat

/-- `GenericUltraCircuitBuilder`, the fields that are used here.  `/repo/co-noir/co-builder/src/ultra_builder.rs:167-201` -/
structure Draft (F : Type) where
  vars : List F
  next : List (Option Nat)
  prev : List (Option Nat)
  real : List Nat
  tags : List Nat
  tag : Nat
  inputs : List Nat
  tau : List (Nat × Nat)
  constants : List (F × Nat)
  zeroIdx : Nat
  arith : List (Gate F)
  delta : List (Gate F)
  rangeLists : List RangeList
  vkMode : Bool

namespace Draft

/-- `assert!`. -/
def check (b : Bool) (msg : String := "assertion failed") : Except Err Unit := if b then .ok () else .error (.panic msg)

/-- `assert_if_has_witness`.  `/repo/co-noir/co-builder/src/ultra_builder.rs:226-231` -/
def checkWitness (s : Draft F) (b : Bool) : Except Err Unit := if s.vkMode then .ok () else check b

/-- `new`.  `/repo/co-noir/co-builder/src/ultra_builder.rs:4001-4037` -/
def empty (vkMode : Bool) : Draft F :=
  ⟨[], [], [], [], [], 0, [], [], [], 0, [], [], [], vkMode⟩

/-- `add_variable`, without the index it returns, which is the number of the variables before.
`/repo/co-noir/co-builder/src/ultra_builder.rs:233-241` -/
def addVariable (s : Draft F) (x : F) : Draft F :=
  { s with vars := s.vars ++ [x], real := s.real ++ [s.vars.length], next := s.next ++ [none], prev := s.prev ++ [none],
           tags := s.tags ++ [0] }

/-- `assert_valid_variables`.  `/repo/co-noir/co-builder/src/ultra_builder.rs:938-946` -/
def checkValid (s : Draft F) (vs : List Nat) : Except Err Unit := check (vs.all (· < s.vars.length))

/-- `get_variable`.  `/repo/co-noir/co-builder/src/ultra_builder.rs:1105-1108` -/
def getVariable (s : Draft F) (i : Nat) : Except Err F := do
  check (i < s.vars.length)
  let r ← index s.real i
  index s.vars r

/-- Adds a row to the block `arithmetic`. -/
def pushArith (s : Draft F) (g : Gate F) : Draft F := { s with arith := s.arith ++ [g] }

/-- Adds a row to the block `delta_range`. -/
def pushDelta (s : Draft F) (g : Gate F) : Draft F := { s with delta := s.delta ++ [g] }

section gates

variable [CommRing F]

/-- A row without a constraint, `create_unconstrained_gate`.  `/repo/co-noir/co-builder/src/ultra_builder.rs:1839-1867` -/
def freeGate (row : Row) : Gate F := ⟨row, 0, 0, 0, 0, 0, 0, 0, 0⟩

/-- `fix_witness`.  `/repo/co-noir/co-builder/src/ultra_builder.rs:892-936` -/
def fixWitness (s : Draft F) (v : Nat) (x : F) : Except Err (Draft F) := do
  s.checkValid [v]
  pure (s.pushArith ⟨![v, s.zeroIdx, s.zeroIdx, s.zeroIdx], 0, 1, 0, 0, 0, -x, 1, 0⟩)

/-- `put_constant_variable`, with the index of the variable.  `/repo/co-noir/co-builder/src/ultra_builder.rs:258-268` -/
def putConstant [DecidableEq F] (s : Draft F) (x : F) : Except Err (Draft F × Nat) :=
  match s.constants.lookup x with
  | some i => .ok (s, i)
  | none => do
    let i := s.vars.length
    let s ← (s.addVariable x).fixWitness i x
    pure ({ s with constants := (x, i) :: s.constants }, i)

/-- `add_public_variable`, in a circuit that is not finalized.  `/repo/co-noir/co-builder/src/ultra_builder.rs:243-251` -/
def addPublicVariable (s : Draft F) (x : F) : Draft F :=
  { s.addVariable x with inputs := s.inputs ++ [s.vars.length] }

/-- `MulQuad` and `AddQuad` (with `mul = 0`): the coefficients of a gate.  The indices are of the type `ι`.
`/repo/co-noir/co-builder/src/types/types.rs:55-66` -/
structure Quad (F ι : Type) where
  a : ι
  b : ι
  c : ι
  d : ι
  mul : F
  qa : F
  qb : F
  qc : F
  qd : F
  const : F

/-- `create_big_mul_add_gate` and `create_big_add_gate`.  `/repo/co-noir/co-builder/src/ultra_builder.rs:478-597` -/
def bigGate (s : Draft F) (q : Quad F Nat) (includeNext : Bool) : Except Err (Draft F) := do
  s.checkValid [q.a, q.b, q.c, q.d]
  pure (s.pushArith ⟨![q.a, q.b, q.c, q.d], if includeNext then q.mul * 2 else q.mul, q.qa, q.qb, q.qc, q.qd, q.const,
    if includeNext then 2 else 1, 0⟩)

/-- `create_add_gate`.  `/repo/co-noir/co-builder/src/ultra_builder.rs:460-476` -/
def addGate (s : Draft F) (a b c : Nat) (qa qb qc const : F) : Except Err (Draft F) :=
  s.bigGate ⟨a, b, c, s.zeroIdx, 0, qa, qb, qc, 0, const⟩ false

/-- `create_bool_gate`.  The result of the check of the index is not used.
`/repo/co-noir/co-builder/src/ultra_builder.rs:3336-3381` -/
def boolGate (s : Draft F) (v : Nat) : Draft F :=
  s.pushArith ⟨![v, v, s.zeroIdx, s.zeroIdx], 1, -1, 0, 0, 0, 0, 1, 0⟩

end gates

/-! ## Copy constraints -/

/-- The loop of `get_first_variable_in_class`.  The model stops with an error if it does not end within `fuel` steps.
`/repo/co-noir/co-builder/src/ultra_builder.rs:1191-1196` -/
def firstInClass (s : Draft F) : Nat → Nat → Except Err Nat
  | 0, _ => .error (.panic "the loop does not end")
  | fuel + 1, i => do
    match ← index s.prev i with
    | none => pure i
    | some j => firstInClass s fuel j

/-- The loop of `update_real_variable_indices`, with the same convention.
`/repo/co-noir/co-builder/src/ultra_builder.rs:1198-1207` -/
def updateReal (s : Draft F) (new : Nat) : Nat → Nat → Except Err (Draft F)
  | 0, _ => .error (.panic "the loop does not end")
  | fuel + 1, i => do
    check (i < s.real.length) "index out of bounds"
    let s' := { s with real := s.real.set i new }
    match ← index s.next i with
    | none => pure s'
    | some j => updateReal s' new fuel j

/-- `assert_equal`; both values are known to the prover in the clear.  `/repo/co-noir/co-builder/src/ultra_builder.rs:1140-1189` -/
def assertEqual [DecidableEq F] (s : Draft F) (a b : Nat) : Except Err (Draft F) := do
  s.checkValid [a, b]
  let x ← s.getVariable a
  let y ← s.getVariable b
  s.checkWitness (x = y)
  let ra ← index s.real a
  let rb ← index s.real b
  if ra = rb then return s
  let startB ← s.firstInClass s.vars.length b
  let s ← s.updateReal ra s.vars.length startB
  let startA ← s.firstInClass s.vars.length a
  check (rb < s.next.length ∧ startA < s.prev.length) "index out of bounds"
  let s := { s with next := s.next.set rb (some startA), prev := s.prev.set startA (some rb) }
  let ta ← index s.tags ra
  let tb ← index s.tags rb
  s.checkWitness (ta = 0 ∨ tb = 0 ∨ ta = tb)
  if ta = 0 then return { s with tags := s.tags.set ra tb }
  return s

/-! ## Range constraints -/

/-- `assign_tag`.  `/repo/co-noir/co-builder/src/ultra_builder.rs:3112-3129` -/
def assignTag (s : Draft F) (v tag : Nat) : Except Err (Draft F) := do
  check (tag ≤ s.tag) "Tag is greater than the current tag"
  let r ← index s.real v
  let old ← index s.tags r
  if old = tag then return s
  check (old = 0) "Tag mismatch: expected DUMMY_TAG"
  return { s with tags := s.tags.set r tag }

/-- The rows of four variables each, `chunks(4)`; the length of the list is a multiple of four. -/
def chunks (l : List Nat) : List Row :=
  (List.range (l.length / 4)).map fun i => fun j : Fin 4 => l.getD (4 * i + j) 0

section ranges

variable [CommRing F]

/-- `create_dummy_constraints`.  `/repo/co-noir/co-builder/src/ultra_builder.rs:3170-3194` -/
def dummyConstraints (s : Draft F) (vs : List Nat) : Except Err (Draft F) := do
  let padded := vs ++ List.replicate ((4 - vs.length % 4) % 4) s.zeroIdx
  s.checkValid vs
  s.checkValid padded
  pure { s with arith := s.arith ++ (chunks padded).map freeGate }

/-- Adds a variable with a tag.  `/repo/co-noir/co-builder/src/ultra_builder.rs:3149-3159, 2540-2541` -/
def addTagged (s : Draft F) (tag : Nat) (x : F) : Except Err (Draft F) := (s.addVariable x).assignTag s.vars.length tag

/-- `create_range_list`.  The new variables get the multiples of three and the bound.
`/repo/co-noir/co-builder/src/ultra_builder.rs:3131-3168` -/
def createRangeList (s : Draft F) (target : Nat) : Except Err (Draft F × RangeList) := do
  let tag := s.tag + 1
  let tau := s.tag + 2
  let s := { s with tag := s.tag + 2, tau := (tau, tag) :: (tag, tau) :: s.tau }
  let values := (List.range (target / 3 + 1)).map (· * 3) ++ [target]
  let vs := List.range' s.vars.length values.length
  let s ← (values.map (Nat.cast : Nat → F)).foldlM (fun s x => s.addTagged tag x) s
  let s ← s.dummyConstraints vs
  pure (s, ⟨target, tag, tau, vs⟩)

/-- Inserts a list into the map `range_lists`, which is ordered by the bound. -/
def insertRange (l : RangeList) : List RangeList → List RangeList
  | [] => [l]
  | x :: xs => if l.target < x.target then l :: x :: xs else if x.target < l.target then x :: insertRange l xs else l :: xs

/-- The first part of `create_new_range_constraint`: the list of a bound is made when it is needed first.
`/repo/co-noir/co-builder/src/ultra_builder.rs:2679-2682` -/
def ensureRange (s : Draft F) (target : Nat) : Except Err (Draft F) :=
  match s.rangeLists.find? (·.target = target) with
  | some _ => .ok s
  | none => do
    let (s, l) ← s.createRangeList target
    pure { s with rangeLists := insertRange l s.rangeLists }

/-- Adds a variable to the list of a bound.  `/repo/co-noir/co-builder/src/ultra_builder.rs:2723-2728` -/
def appendRange (target v : Nat) (ls : List RangeList) : List RangeList :=
  ls.map fun l => if l.target = target then { l with vars := l.vars ++ [v] } else l

/-- `create_new_range_constraint`.  It calls itself at most once: the copy has no tag.
`/repo/co-noir/co-builder/src/ultra_builder.rs:2672-2730` -/
def newRange (s : Draft F) (v target : Nat) : Nat → Except Err (Draft F)
  | 0 => .error (.panic "the recursion does not end")
  | fuel + 1 => do
    let s ← s.ensureRange target
    let r ← index s.real v
    let old ← index s.tags r
    match s.rangeLists.find? (·.target = target) with
    | none => .error (.panic "unreachable")
    | some list =>
      if old = list.tag then return s
      if old ≠ 0 then
        match s.rangeLists.find? (·.tag = old) with
        | none => .error (.panic "assertion failed: found_tag")
        | some l =>
          if l.target < target then return s
          let x ← s.getVariable v
          let copy := s.vars.length
          let s ← (s.addVariable x).addGate v copy s.zeroIdx 1 (-1) 0 0
          newRange s copy target fuel
      else
        let s ← s.assignTag v list.tag
        return { s with rangeLists := appendRange target v s.rangeLists }

/-- One round of the loop of `create_limbed_range_constraint`: the gate of three limbs, and the rest of the value that is left.  `st` is the
circuit, the rest and its variable; `limbs` are the variables of the limbs with their values.
`/repo/co-noir/co-builder/src/ultra_builder.rs:2826-2902` -/
def limbGate (bits : Nat) (limbs : List (Nat × F)) (triples : Nat) (st : Draft F × F × Nat) (i : Nat) : Except Err (Draft F × F × Nat) := do
  let shift (j : Nat) : F := (2 ^ (bits * (3 * i + j)) % 2 ^ 256 : Nat)
  let limb (j : Nat) : Nat × F := limbs.getD (3 * i + j) (st.1.zeroIdx, 0)
  let rest := st.2.1 - (shift 0 * (limb 0).2 + shift 1 * (limb 1).2 + shift 2 * (limb 2).2)
  let s ← st.1.bigGate ⟨(limb 0).1, (limb 1).1, (limb 2).1, st.2.2, 0, shift 0, shift 1, shift 2, -1, 0⟩ (i + 1 ≠ triples)
  if i + 1 ≠ triples then pure (s.addVariable rest, rest, s.vars.length) else pure (s, st.2)

/-- The variables of the limbs and their range constraints.  `/repo/co-noir/co-builder/src/ultra_builder.rs:2796-2806` -/
def addLimb (st : Draft F × List (Nat × F)) (x : F × Nat) : Except Err (Draft F × List (Nat × F)) := do
  let s ← (st.1.addVariable x.1).newRange st.1.vars.length x.2 2
  pure (s, st.2 ++ [(st.1.vars.length, x.1)])

/-- The limbs of a value and their bounds.  `/repo/co-noir/co-builder/src/ultra_builder.rs:2764-2795` -/
def limbsOf (n num bits : Nat) : List (Nat × Nat) :=
  let limbs := num / bits + if num % bits = 0 then 0 else 1
  (List.range limbs).map fun i =>
    (n / 2 ^ (bits * i) % 2 ^ bits, if i + 1 = limbs ∧ num % bits ≠ 0 then 2 ^ (num % bits) - 1 else 2 ^ bits - 1)

/-- `create_limbed_range_constraint` for a value in the clear.  `/repo/co-noir/co-builder/src/ultra_builder.rs:2732-2906` -/
def limbedRange (toNat : F → Nat) (s : Draft F) (v num bits : Nat) : Except Err (Draft F) := do
  check (v < s.vars.length)
  check (0 < num)
  let val ← s.getVariable v
  let limbs := (limbsOf (toNat val) num bits).map fun x => ((x.1 : F), x.2)
  let (s, idxs) ← limbs.foldlM addLimb (s, [])
  let triples := (limbs.length + 2) / 3
  let st ← (List.range triples).foldlM (limbGate bits idxs triples) (s, val, v)
  pure st.1

/-- `create_dyadic_range_constraint`.  `/repo/co-noir/co-builder/src/ultra_builder.rs:2640-2670` -/
def dyadicRange (toNat : F → Nat) (s : Draft F) (v num : Nat) : Except Err (Draft F) :=
  if num = 1 then .ok (s.boolGate v)
  else if num ≤ 14 then
    (s.pushArith (freeGate ![v, s.zeroIdx, s.zeroIdx, s.zeroIdx])).newRange v (2 ^ num - 1) 2
  else s.limbedRange toNat v num 14

/-! ## Finalization -/

/-- `create_sort_constraint_with_edges`.  The rows but the last one are made by a loop, and the last one after it in the same way.
`/repo/co-noir/co-builder/src/ultra_builder.rs:3196-3334` -/
def sortConstraint (s : Draft F) (vs : List Nat) (start stop : F) : Except Err (Draft F) := do
  check (vs.length % 4 = 0 ∧ 4 < vs.length) "the number of variables must be a multiple of 4 and greater than 4"
  s.checkValid vs
  let s ← s.addGate (vs.headD 0) s.zeroIdx s.zeroIdx 1 0 0 (-start)
  let s := { s with delta := s.delta ++ (chunks vs).map fun row => (⟨row, 0, 0, 0, 0, 0, 0, 0, 1⟩ : Gate F) }
  let s := s.pushDelta (freeGate ![vs.getLastD 0, s.zeroIdx, s.zeroIdx, s.zeroIdx])
  s.addGate (vs.getLastD 0) s.zeroIdx s.zeroIdx 1 0 0 (-stop)

/-- `sort` of the prover in the clear.  `/repo/co-noir/co-acvm/src/mpc/plain.rs:364-378` -/
def sortValues (toNat : F → Nat) (xs : List F) (bits : Nat) : List F :=
  ((xs.map fun x => toNat x % 2 ^ bits).insertionSort (· ≤ ·)).map Nat.cast

/-- `process_range_list`.  The duplicates are removed from a sorted list; `next_power_of_two` is written with the logarithm.
`/repo/co-noir/co-builder/src/ultra_builder.rs:2492-2551` -/
def processRange (toNat : F → Nat) (s : Draft F) (list : RangeList) : Except Err (Draft F) := do
  s.checkValid list.vars
  check (list.vars ≠ []) "variable_indices must not be empty"
  let reals ← list.vars.mapM (index s.real)
  let vs := (reals.insertionSort (· ≤ ·)).dedup
  let values ← vs.mapM s.getVariable
  let sorted := sortValues toNat values (Nat.log 2 (2 ^ Nat.clog 2 (list.target + 1)))
  let padding := (4 - vs.length % 4) % 4 + if vs.length ≤ 4 then 4 else 0
  let first := s.vars.length
  let s ← sorted.foldlM (fun s x => s.addTagged list.tau x) s
  s.sortConstraint (List.replicate padding s.zeroIdx ++ List.range' first sorted.length) 0 list.target

/-- `process_range_lists`.  `/repo/co-noir/co-builder/src/ultra_builder.rs:1921-1937` -/
def processRanges (toNat : F → Nat) (s : Draft F) : Except Err (Draft F) :=
  s.rangeLists.foldlM (fun s l => s.processRange toNat l) s

end ranges

end Draft

end Verif.Honk
