import Mathlib.Data.ZMod.Basic
import Mathlib.Logic.Function.Basic
import Mathlib.Data.Nat.Size
import Verif.Net.MPC

/-!
# The solver for Noir programs

Models `/repo/co-noir/co-acvm/src/solver.rs` and `/repo/co-noir/co-acvm/src/solver/{assert_zero_solver,memory_solver}.rs` and
the opcodes `RANGE`, `AND` and `XOR` of `/repo/co-noir/co-acvm/src/solver/blackbox_solver.rs`, for any driver.

Simplifications: `Brillig` calls and the other black box functions are not represented; the solved function is the only
one (the witness stack has one entry); the traces written with `tracing` are dropped; the `debug_assert!`s (absent from
release builds) are dropped; error messages do not print the expression.  The expressions, witnesses and opcodes are types of
the crate `acir`.
-/

namespace Verif.Acvm

/-- `acir::native_types::Expression`: `∑ c * x * y + ∑ q * w + q_c`. -/
structure Expression (F : Type) where
  mulTerms : List (F × Nat × Nat)
  linear : List (F × Nat)
  qc : F

/-- `acir::circuit::opcodes::FunctionInput` -/
inductive Input (F : Type)
  | witness (w : Nat)
  | constant (c : F)

/-- `acir::circuit::Opcode`, the variants that are modelled.  `call` stands for those the solver does not support. -/
inductive Opcode (F : Type)
  | assertZero (e : Expression F)
  | memoryInit (block : Nat) (init : List Nat)
  | memoryRead (block index value : Nat)
  | memoryWrite (block index value : Nat)
  | range (input : Input F) (bits : Nat)
  | and (lhs rhs : Input F) (bits output : Nat)
  | xor (lhs rhs : Input F) (bits output : Nat)
  | call

/-- The methods of `NoirWitnessExtensionProtocol` that the solver uses. `V` are the values, `L` the lookup tables, `A` the
shares. `/repo/co-noir/co-acvm/src/mpc.rs:25-330` -/
structure Driver (m : Type → Type) (V L F A : Type) where
  /-- `public_zero` -/
  zero : V
  /-- `AcvmType::from` -/
  ofPub : F → V
  addAssignWithPublic : F → V → m V
  addAssign : V → V → m V
  mulWithPublic : F → V → m V
  solveMulTerm : F → V → V → m V
  solveLinearTerm : F → V → V → m V
  solveEquation : V → V → m V
  initLut : List V → m L
  readLut : V → L → m V
  writeLut : V → V → L → m L
  bitwiseAnd : V → V → Nat → m V
  bitwiseXor : V → V → Nat → m V
  isShared : V → Bool
  getShared : V → Option A
  getPublic : V → Option F
  openMany : List A → m (List F)
  /-- Errors and panics. -/
  fail : {α : Type} → Err → m α

/-- The witness map of the solved function and the tables of its memory blocks.
`/repo/co-noir/co-acvm/src/solver.rs:70-88` -/
structure St (V L : Type) where
  witness : Nat → Option V
  memory : Nat → Option L

variable {m : Type → Type} [Monad m] {V L A : Type} {p : Nat} (D : Driver m V L (ZMod p) A)

/-- `self.witness().insert(w, v)` -/
def St.insert (s : St V L) (w : Nat) (v : V) : St V L := { s with witness := Function.update s.witness w (some v) }

/-- `self.memory_access.insert(block, lut)` -/
def St.setBlock (s : St V L) (block : Nat) (lut : L) : St V L :=
  { s with memory := Function.update s.memory block (some lut) }

/-- An expression with all mul terms evaluated: the accumulator of `simplify_expression`. -/
structure Acc (V : Type) where
  linear : List (V × Nat)
  qc : V

/-- `/repo/co-noir/co-acvm/src/solver/assert_zero_solver.rs:14-64` -/
def evaluateMulTerms (W : Nat → Option V) : List (ZMod p × Nat × Nat) → Acc V → m (Acc V)
  | [], acc => pure acc
  | (c, lhs, rhs) :: ts, acc =>
    if c = 0 then evaluateMulTerms W ts acc
    else
      match W lhs, W rhs with
      | some l, some r => do
        let solved ← D.solveMulTerm c l r
        let qc ← D.addAssign acc.qc solved
        evaluateMulTerms W ts { acc with qc := qc }
      | some l, none => do
        let x ← D.mulWithPublic c l
        evaluateMulTerms W ts { acc with linear := acc.linear ++ [(x, rhs)] }
      | none, some r => do
        let x ← D.mulWithPublic c r
        evaluateMulTerms W ts { acc with linear := acc.linear ++ [(x, lhs)] }
      | none, none => D.fail (.err "two unknowns in evaluate mul term. Not solvable for expr")

/-- `/repo/co-noir/co-acvm/src/solver/assert_zero_solver.rs:66-84` -/
def evaluateLinearTerms (W : Nat → Option V) : List (ZMod p × Nat) → Acc V → m (Acc V)
  | [], acc => pure acc
  | (q, w) :: ts, acc =>
    match W w with
    | some x => do
      let qc ← D.solveLinearTerm q x acc.qc
      evaluateLinearTerms W ts { acc with qc := qc }
    | none => evaluateLinearTerms W ts { acc with linear := acc.linear ++ [(D.ofPub q, w)] }

/-- `/repo/co-noir/co-acvm/src/solver/assert_zero_solver.rs:86-107` -/
def simplifyExpression (W : Nat → Option V) (e : Expression (ZMod p)) : m (Acc V) := do
  let acc ← evaluateMulTerms D W e.mulTerms ⟨[], D.zero⟩
  let acc ← evaluateLinearTerms D W e.linear acc
  let qc ← D.addAssignWithPublic e.qc acc.qc
  pure { acc with qc := qc }

/-- The end of `solve_assert_zero`. `/repo/co-noir/co-acvm/src/solver/assert_zero_solver.rs:127-147` -/
def solveSimplified (s : St V L) : Acc V → m (St V L)
  | ⟨[], _⟩ => pure s
  | ⟨[(q, w)], c⟩ => do
    let x ← D.solveEquation q c
    pure (s.insert w x)
  | ⟨_ :: _ :: _, _⟩ => D.fail (.err "too many unknowns. not solvable for expression")

/-- `/repo/co-noir/co-acvm/src/solver/assert_zero_solver.rs:109-148` -/
def solveAssertZero (s : St V L) (e : Expression (ZMod p)) : m (St V L) := do
  let acc ← simplifyExpression D s.witness e
  solveSimplified D s acc

/-- `witness_to_value`. `/repo/co-noir/co-acvm/src/solver/blackbox_solver.rs:50-58` -/
def witnessToValue (W : Nat → Option V) (w : Nat) : m V :=
  match W w with
  | some v => pure v
  | none => D.fail (.err "missing assignment for witness")

/-- `input_to_value`. `/repo/co-noir/co-acvm/src/solver/blackbox_solver.rs:62-73`.  The check that all inputs are assigned,
lines 418-430, fails with the same error. -/
def inputToValue (W : Nat → Option V) : Input (ZMod p) → m V
  | .witness w => witnessToValue D W w
  | .constant c => pure (D.ofPub c)

/-- `collect::<Option<Vec<_>>>()` of the initial values of a block. -/
def lookupAll (W : Nat → Option V) : List Nat → Option (List V)
  | [] => some []
  | w :: ws =>
    match W w, lookupAll W ws with
    | some v, some vs => some (v :: vs)
    | _, _ => none

/-- `/repo/co-noir/co-acvm/src/solver/memory_solver.rs:17-42` -/
def solveMemoryInit (s : St V L) (block : Nat) (init : List Nat) : m (St V L) :=
  match s.memory block with
  | some _ => D.fail (.err "There is already a block for id")
  | none =>
    match lookupAll s.witness init with
    | none => D.fail (.err "tried to write not initialized witness to memory - this is a  bug")
    | some vs => do
      let lut ← D.initLut vs
      pure (s.setBlock block lut)

/-- `self.memory_access.get(block_id)` -/
def getBlock (s : St V L) (block : Nat) : m L :=
  match s.memory block with
  | some lut => pure lut
  | none => D.fail (.err "tried to access block but not present")

/-- `MemOpKind::Read`. `/repo/co-noir/co-acvm/src/solver/memory_solver.rs:44-63` -/
def solveMemoryRead (s : St V L) (block index value : Nat) : m (St V L) := do
  let i ← witnessToValue D s.witness index
  let lut ← getBlock D s block
  let v ← D.readLut i lut
  pure (s.insert value v)

/-- `MemOpKind::Write`. `/repo/co-noir/co-acvm/src/solver/memory_solver.rs:44-79` -/
def solveMemoryWrite (s : St V L) (block index value : Nat) : m (St V L) := do
  let i ← witnessToValue D s.witness index
  let v ← witnessToValue D s.witness value
  let lut ← getBlock D s block
  let lut ← D.writeLut i v lut
  pure (s.setBlock block lut)

/-- The size check on a public value; secret values are not checked.  `num_bits` of a field element is the length of its
binary representation. `/repo/co-noir/co-acvm/src/solver/blackbox_solver.rs:107-114`, `192-203` -/
def checkBitSize (msg : String) (bits : Nat) (v : V) : m Unit :=
  match D.getPublic v with
  | some x => if bits < Nat.size x.val then D.fail (.err msg) else pure ()
  | none => pure ()

/-- `/repo/co-noir/co-acvm/src/solver/blackbox_solver.rs:102-116` -/
def solveRange (s : St V L) (input : Input (ZMod p)) (bits : Nat) : m (St V L) := do
  let v ← inputToValue D s.witness input
  checkBitSize D "UnsatisfiedConstraint" bits v
  pure s

/-- The comparison in `insert_value`. -/
def checkOld (old : Option V) (v : V) : m Unit :=
  match old with
  | none => pure ()
  | some old =>
    match D.getPublic old, D.getPublic v with
    | some a, some b => if a ≠ b then D.fail (.err "UnsatisfiedConstraint") else pure ()
    | _, _ => pure ()

/-- `insert_value`. `/repo/co-noir/co-acvm/src/solver/blackbox_solver.rs:79-100` -/
def insertValue (s : St V L) (w : Nat) (v : V) : m (St V L) := do
  checkOld D (s.witness w) v
  pure (s.insert w v)

/-- The pedantic checks of the operands. -/
def checkOperands (pedantic : Bool) (bits : Nat) (l r : V) : m Unit :=
  if pedantic then do
    checkBitSize D "InvalidInputBitSize" bits l
    checkBitSize D "InvalidInputBitSize" bits r
  else pure ()

/-- `/repo/co-noir/co-acvm/src/solver/blackbox_solver.rs:158-190` -/
def solveLogic (pedantic : Bool) (op : V → V → Nat → m V) (s : St V L) (lhs rhs : Input (ZMod p)) (bits output : Nat) :
    m (St V L) := do
  let l ← inputToValue D s.witness lhs
  let r ← inputToValue D s.witness rhs
  checkOperands D pedantic bits l r
  let x ← op l r bits
  insertValue D s output x

/-- One opcode. `/repo/co-noir/co-acvm/src/solver.rs:322-340` -/
def step (pedantic : Bool) (s : St V L) : Opcode (ZMod p) → m (St V L)
  | .assertZero e => solveAssertZero D s e
  | .memoryInit b init => solveMemoryInit D s b init
  | .memoryRead b i v => solveMemoryRead D s b i v
  | .memoryWrite b i v => solveMemoryWrite D s b i v
  | .range x n => solveRange D s x n
  | .and l r n o => solveLogic D pedantic D.bitwiseAnd s l r n o
  | .xor l r n o => solveLogic D pedantic D.bitwiseXor s l r n o
  | .call => D.fail (.panic "not yet implemented: opcode detected, not supported yet")

/-- The loop over the opcodes. -/
def steps (pedantic : Bool) : St V L → List (Opcode (ZMod p)) → m (St V L)
  | s, [] => pure s
  | s, op :: ops => do
    let s ← step D pedantic s op
    steps pedantic s ops

/-- The first loop of `open_results`. `/repo/co-noir/co-acvm/src/solver.rs:294-300` -/
def collectShared (W : Nat → Option V) : List Nat → m (List A)
  | [] => pure []
  | w :: ws =>
    match W w with
    | none => D.fail (.panic "witness should be present")
    | some v => do
      let rest ← collectShared W ws
      pure ((D.getShared v).toList ++ rest)

/-- The second loop of `open_results`; `result` grows at its end. `/repo/co-noir/co-acvm/src/solver.rs:303-312` -/
def publish : List Nat → List (ZMod p) → St V L → List V → m (St V L × List V)
  | [], _, s, result => pure (s, result)
  | w :: ws, opened, s, result =>
    match s.witness w with
    | none => D.fail (.panic "witness should be present")
    | some v =>
      if D.isShared v then
        match opened.getLast? with
        | none => D.fail (.panic "opened value should be present")
        | some x => publish ws opened.dropLast (s.insert w (D.ofPub x)) (result ++ [D.ofPub x])
      else publish ws opened s (result ++ [v])

/-- `/repo/co-noir/co-acvm/src/solver.rs:288-314`; `returns` are the elements of the set `function.return_values`, in
increasing order. -/
def openResults (s : St V L) (returns : List Nat) : m (St V L × List V) := do
  let shares ← collectShared D s.witness returns
  let opened ← D.openMany shares
  publish D returns.reverse opened s []

/-- `solve_with_output` for a program of one function: the witness map and the output.
`/repo/co-noir/co-acvm/src/solver.rs:316-351` -/
def solve (pedantic : Bool) (witness : Nat → Option V) (ops : List (Opcode (ZMod p))) (returns : List Nat) :
    m ((Nat → Option V) × List V) := do
  let s ← steps D pedantic ⟨witness, fun _ => none⟩ ops
  let r ← openResults D s returns
  pure (r.1.witness, r.2)

end Verif.Acvm
