import Verif.CircomVm.Driver

/-!
# The circom witness extension VM

The VM runs the bytecode of a circom program against a driver (`Verif/CircomVm/Driver.lean`).  Indices are natural
numbers: overflow of `usize` is not modelled.  A stack frame is a list whose head is the top; the stack of frames, the
stack of branches and the stack of function calls are lists whose head is the innermost.  An execution is bounded by fuel;
a run that is out of fuel fails.  Not modelled: the log buffer (the calls of the driver for `Log` are), the Poseidon2
accelerator (a component that would use it fails), registering other accelerators, and the pre-computed traces of
`run_with_helper_trace`.

Models: `/repo/co-circom/circom-mpc-vm/src/mpc_vm.rs`, `/repo/co-circom/circom-mpc-vm/src/op_codes.rs`,
`/repo/co-circom/circom-mpc-vm/src/stack.rs`, `/repo/co-circom/circom-mpc-vm/src/types.rs`,
`/repo/co-circom/circom-mpc-vm/src/accelerator.rs`.
-/

namespace Verif.CircomVm

/-- `MpcOpCode`.  The binary operations are collected in `bin` (`Eq` is `eqN`, so the VM has no use of `bin .eq`).
`/repo/co-circom/circom-mpc-vm/src/op_codes.rs:11-143` -/
inductive OpCode where
  | pushConstant (index : Nat)
  | pushIndex (index : Nat)
  | loadSignals (amount : Nat)
  | storeSignals (amount : Nat)
  | loadVars (amount : Nat)
  | storeVars (amount : Nat)
  | outputSubComp (mapped : Bool) (code amount : Nat)
  | inputSubComp (mapped : Bool) (code amount : Nat)
  | createCmp (symbol : String) (amount : Nat)
  | call (symbol : String) (returnVals : Nat)
  | ret
  | returnFun
  | returnSharedIfFun
  | assert (line : Nat)
  | branch (jump : Nat)
  | endTruthyBranch (jump : Nat)
  | endFalsyBranch
  | bin (op : BinOp)
  | neg
  | eqN (size : Nat)
  | mulIndex
  | addIndex
  | toIndex
  | jumpBack (jump : Nat)
  | jumpIfFalse (jump : Nat)
  | log
  | logString (index : Nat)
  | logFlush (line : Nat)
  deriving DecidableEq, Repr

/-- `/repo/co-circom/circom-mpc-vm/src/types.rs:21-31` -/
structure TemplateDecl where
  name : String
  inputSignals : Nat
  outputSignals : Nat
  vars : Nat
  mappings : List Nat
  body : List OpCode

/-- `/repo/co-circom/circom-mpc-vm/src/types.rs:74-78` -/
structure FunDecl where
  numParams : Nat
  vars : Nat
  body : List OpCode

/-- The flags of the accelerators. `/repo/co-circom/circom-mpc-vm/src/accelerator.rs:43-59` -/
structure AccelConfig where
  sqrt : Bool
  num2bits : Bool
  addbits : Bool
  iszero : Bool
  poseidon2 : Bool

/-- What a running component reads only.  The string table is its length.
`/repo/co-circom/circom-mpc-vm/src/mpc_vm.rs:120-127`, `VMConfig` 28-36 -/
structure Ctx (P : Type) where
  constants : List P
  strings : Nat
  funDecls : String → Option FunDecl
  templDecls : String → Option TemplateDecl
  accel : AccelConfig
  leakyLogs : Bool

/-- A branch of an `if`: of a public condition, or of a secret one with the condition of the surrounding branches, the
condition of this branch and all surrounding ones, and the condition of the `if` itself.
`/repo/co-circom/circom-mpc-vm/src/mpc_vm.rs:129-133` -/
inductive IfCtx (V : Type) where
  | pub
  | shared (last acc cond : V)

/-- What is saved by a function call. `/repo/co-circom/circom-mpc-vm/src/mpc_vm.rs:228-235` -/
structure FunCtx (V : Type) where
  ip : Nat
  returnVals : Nat
  vars : List V
  body : List OpCode
  sharedRet : List (V × List V)

/-- A sub-component as its parent sees it.  The stacks of a component are empty until it runs and are not used after;
a second run (an empty input after the component was complete) is refused by the model.
`/repo/co-circom/circom-mpc-vm/src/mpc_vm.rs:99-118` -/
structure Comp where
  decl : TemplateDecl
  offset : Nat
  provided : Nat
  ran : Bool

/-- The state of a running component together with the signals of the whole circuit.
`Component`, `/repo/co-circom/circom-mpc-vm/src/mpc_vm.rs:99-118`, and the local variables of `run`, 320-323 -/
structure St (V : Type) where
  ip : Nat
  body : List OpCode
  vars : List V
  sharedRet : List (V × List V)
  offset : Nat
  fields : List (List V)
  idxs : List (List Nat)
  ifs : List (IfCtx V)
  funs : List (FunCtx V)
  returnVals : Nat
  subs : List Comp
  signals : List V

/-! ### Slices and stacks -/

/-- `l[start..start + n]` -/
def readSlice {α : Type} (l : List α) (start n : Nat) : Option (List α) :=
  if start + n ≤ l.length then some ((l.drop start).take n) else none

/-- `l[start..start + xs.len()].clone_from_slice(xs)`; also used for a loop that assigns the positions one by one, which
for no value does not look at `start` (there the model checks the range). -/
def writeSlice {α : Type} (l : List α) (start : Nat) (xs : List α) : Option (List α) :=
  if start + xs.length ≤ l.length then some (l.take start ++ xs ++ l.drop (start + xs.length)) else none

namespace St

variable {V : Type}

/-- `pop_field`. `/repo/co-circom/circom-mpc-vm/src/mpc_vm.rs:293-295`, `/repo/co-circom/circom-mpc-vm/src/stack.rs:40-46` -/
def pop (s : St V) : Option (V × St V) :=
  match s.fields with
  | (v :: f) :: r => some (v, { s with fields := f :: r })
  | _ => none

/-- `n` calls of `pop_field`; the values are in the order of the calls. -/
def popN (n : Nat) (s : St V) : Option (List V × St V) :=
  match s.fields with
  | f :: r => if n ≤ f.length then some (f.take n, { s with fields := f.drop n :: r }) else none
  | [] => none

/-- `push_field` for each of `xs`. `/repo/co-circom/circom-mpc-vm/src/mpc_vm.rs:288-290`,
`/repo/co-circom/circom-mpc-vm/src/stack.rs:32-37` -/
def pushAll (xs : List V) (s : St V) : Option (St V) :=
  match s.fields with
  | f :: r => some { s with fields := (xs.reverse ++ f) :: r }
  | [] => if xs.isEmpty then some s else none

/-- `push_field` -/
def push (x : V) (s : St V) : Option (St V) := s.pushAll [x]

/-- `pop_index`. `/repo/co-circom/circom-mpc-vm/src/mpc_vm.rs:303-305` -/
def popIdx (s : St V) : Option (Nat × St V) :=
  match s.idxs with
  | (v :: f) :: r => some (v, { s with idxs := f :: r })
  | _ => none

/-- `push_index`. `/repo/co-circom/circom-mpc-vm/src/mpc_vm.rs:298-300` -/
def pushIdx (x : Nat) (s : St V) : Option (St V) :=
  match s.idxs with
  | f :: r => some { s with idxs := (x :: f) :: r }
  | [] => none

/-- `ip += 1` -/
def next (s : St V) : St V := { s with ip := s.ip + 1 }

/-- The end of a function call: the caller is restored, and continues after the call.
`/repo/co-circom/circom-mpc-vm/src/mpc_vm.rs:840-847` -/
def leave (s : St V) : Option (St V) :=
  match s.funs with
  | f :: r => some { s with
      ip := f.ip + 1, returnVals := f.returnVals, sharedRet := f.sharedRet, vars := f.vars, body := f.body, funs := r }
  | [] => none

end St

/-- The condition of all secret branches that are open: `is_shared` and `get_shared_condition`.
`/repo/co-circom/circom-mpc-vm/src/mpc_vm.rs:140-157` -/
def sharedCond {V : Type} : List (IfCtx V) → Option V
  | [] => none
  | .pub :: r => sharedCond r
  | .shared _ acc _ :: _ => some acc

section

variable {m : Type → Type} [Monad m] {V P A : Type} (D : Driver m V P A)

/-- A panic if there is no value. -/
def orFail {α : Type} (msg : String) : Option α → m α
  | some a => pure a
  | none => D.fail (.panic msg)

/-- `/repo/co-circom/circom-mpc-vm/src/mpc_vm.rs:167-186` -/
def pushShared (ifs : List (IfCtx V)) (cond : V) : m (List (IfCtx V)) := do
  let last := (sharedCond ifs).getD D.one
  let acc ← D.bin .boolAnd last cond
  pure (.shared last acc cond :: ifs)

/-- The values stored by a store instruction: within secret branches the old values are kept unless the condition of the
branches holds.  `news` and `olds` in the order of the calls of `cmux`.
`/repo/co-circom/circom-mpc-vm/src/mpc_vm.rs:379-391, 404-415` -/
def muxAll (ifs : List (IfCtx V)) (news olds : List V) : m (List V) :=
  match sharedCond ifs with
  | none => pure news
  | some c => (news.zip olds).mapM fun x => D.cmux c x.1 x.2

/-- Store: the values that are popped go to the positions from `start`, the last position first.  All values are popped
before the first `cmux` (in the code pops and calls alternate). -/
def store (n start : Nat) (mem : List V) (s : St V) : m (List V × St V) := do
  let r ← orFail D "stack frame is empty?" (s.popN n)
  let olds ← orFail D "range end index out of range" (readSlice mem start n)
  let vals ← muxAll D s.ifs r.1 olds.reverse
  let mem ← orFail D "range end index out of range" (writeSlice mem start vals.reverse)
  pure (mem, r.2)

/-- `/repo/co-circom/circom-mpc-vm/src/mpc_vm.rs:366-375` -/
def opLoadSignals (n : Nat) (s : St V) : m (St V) := do
  let r ← orFail D "stack frame is empty?" s.popIdx
  let vals ← orFail D "range end index out of range" (readSlice r.2.signals (r.2.offset + r.1) n)
  let s ← orFail D "stack is empty and you want to push?" (r.2.pushAll vals)
  pure s.next

/-- `/repo/co-circom/circom-mpc-vm/src/mpc_vm.rs:376-392` -/
def opStoreSignals (n : Nat) (s : St V) : m (St V) := do
  let r ← orFail D "stack frame is empty?" s.popIdx
  let q ← store D n (r.2.offset + r.1) r.2.signals r.2
  pure { q.2 with signals := q.1 }.next

/-- `/repo/co-circom/circom-mpc-vm/src/mpc_vm.rs:393-401` -/
def opLoadVars (n : Nat) (s : St V) : m (St V) := do
  let r ← orFail D "stack frame is empty?" s.popIdx
  let vals ← orFail D "range end index out of range" (readSlice r.2.vars r.1 n)
  let s ← orFail D "stack is empty and you want to push?" (r.2.pushAll vals)
  pure s.next

/-- `/repo/co-circom/circom-mpc-vm/src/mpc_vm.rs:402-416` -/
def opStoreVars (n : Nat) (s : St V) : m (St V) := do
  let r ← orFail D "stack frame is empty?" s.popIdx
  let q ← store D n r.1 r.2.vars r.2
  pure { q.2 with vars := q.1 }.next

/-- The arguments of a function call: a copy of the top of the field stack, which keeps them.
`/repo/co-circom/circom-mpc-vm/src/mpc_vm.rs:422, 437-442` -/
def callArgs (n : Nat) (s : St V) : Option (List V) :=
  match s.fields with
  | f :: _ => if n ≤ f.length then some (f.take n).reverse else none
  | [] => none

/-- Start of a function. `/repo/co-circom/circom-mpc-vm/src/mpc_vm.rs:436-461` -/
def enterFun (decl : FunDecl) (args : List V) (returnVals : Nat) (s : St V) : Option (St V) :=
  if args.length ≤ decl.vars then some { s with
    ip := 0
    body := decl.body
    vars := args ++ List.replicate (decl.vars - args.length) D.zero
    sharedRet := []
    fields := [] :: s.fields
    idxs := [] :: s.idxs
    funs := ⟨s.ip, s.returnVals, s.vars, s.body, s.sharedRet⟩ :: s.funs
    returnVals := returnVals }
  else none

/-- The `sqrt` accelerator for functions. `/repo/co-circom/circom-mpc-vm/src/accelerator.rs:189-197`,
`/repo/co-circom/circom-mpc-vm/src/mpc_vm.rs:424-434` -/
def accelSqrt (args : List V) (s : St V) : m (St V) :=
  match args with
  | [x] => do
    let r ← D.sqrt x
    let s ← orFail D "stack is empty and you want to push?" (s.push r)
    pure s.next
  | _ => D.fail (.err "Calling SQRT accelerator with more than one argument!")

/-- The body of a function call. -/
def callFun (ctx : Ctx P) (symbol : String) (returnVals : Nat) (decl : FunDecl) (s : St V) : m (St V) := do
  let args ← orFail D "attempt to subtract with overflow" (callArgs decl.numParams s)
  if ctx.accel.sqrt && symbol == "sqrt_0" then accelSqrt D args s
  else orFail D "index out of bounds" (enterFun D decl args returnVals s)

/-- `/repo/co-circom/circom-mpc-vm/src/mpc_vm.rs:417-462` -/
def opCall (ctx : Ctx P) (symbol : String) (returnVals : Nat) (s : St V) : m (St V) :=
  match ctx.funDecls symbol with
  | none => D.fail (.err "not found in function declaration. This must be a bug..")
  | some decl => callFun D ctx symbol returnVals decl s

/-- Creation of one component, which runs if it has no inputs. -/
def createOne (runSub : TemplateDecl → Nat → List V → m (List V)) (decl : TemplateDecl) (s : St V) (offset : Nat) :
    m (St V) :=
  if decl.inputSignals = 0 then do
    let signals ← runSub decl offset s.signals
    pure { s with signals := signals, subs := s.subs ++ [⟨decl, offset, 0, true⟩] }
  else pure { s with subs := s.subs ++ [⟨decl, offset, 0, false⟩] }

/-- `/repo/co-circom/circom-mpc-vm/src/mpc_vm.rs:463-487` -/
def opCreateCmp (ctx : Ctx P) (runSub : TemplateDecl → Nat → List V → m (List V)) (symbol : String) (n : Nat) (s : St V) :
    m (St V) := do
  let jump ← orFail D "stack frame is empty?" s.popIdx
  let rel ← orFail D "stack frame is empty?" jump.2.popIdx
  match ctx.templDecls symbol with
  | none => D.fail (.err "not found in template declarations. This must be a bug")
  | some decl => do
    let s ← ((List.range n).map fun i => rel.2.offset + rel.1 + i * jump.1).foldlM (createOne runSub decl) rel.2
    pure s.next

/-- The position of a signal within a component. `/repo/co-circom/circom-mpc-vm/src/mpc_vm.rs:492-495, 513-517` -/
def signalOffset (c : Comp) (mapped : Bool) (code index : Nat) : Option Nat :=
  if mapped then (c.decl.mappings[code]?).map fun k => c.offset + (index + k) else some (c.offset + index)

/-- `/repo/co-circom/circom-mpc-vm/src/mpc_vm.rs:488-499` -/
def opOutputSubComp (mapped : Bool) (code n : Nat) (s : St V) : m (St V) := do
  let sub ← orFail D "stack frame is empty?" s.popIdx
  let index ← orFail D "stack frame is empty?" sub.2.popIdx
  let c ← orFail D "index out of bounds" index.2.subs[sub.1]?
  let off ← orFail D "index out of bounds" (signalOffset c mapped code index.1)
  let vals ← orFail D "range end index out of range" (readSlice index.2.signals off n)
  let s ← orFail D "stack is empty and you want to push?" (index.2.pushAll vals)
  pure s.next

/-- A component has received an input, and runs if it was the last one.
`/repo/co-circom/circom-mpc-vm/src/mpc_vm.rs:518-552` -/
def provide (runSub : TemplateDecl → Nat → List V → m (List V)) (sub : Nat) (c : Comp) (n : Nat) (s : St V) : m (St V) :=
  if c.provided + n = c.decl.inputSignals then
    if c.ran then D.fail (.panic "not modelled: second run of a component")
    else do
      let signals ← runSub c.decl c.offset s.signals
      pure { s with signals := signals, subs := s.subs.set sub { c with provided := c.provided + n, ran := true } }
  else pure { s with subs := s.subs.set sub { c with provided := c.provided + n } }

/-- `/repo/co-circom/circom-mpc-vm/src/mpc_vm.rs:500-553`, without traces -/
def opInputSubComp (runSub : TemplateDecl → Nat → List V → m (List V)) (mapped : Bool) (code n : Nat) (s : St V) :
    m (St V) :=
  if (sharedCond s.ifs).isSome then D.fail (.panic "Cannot be shared when providing inputs for sub component")
  else do
    let sub ← orFail D "stack frame is empty?" s.popIdx
    let index ← orFail D "stack frame is empty?" sub.2.popIdx
    let vals ← orFail D "stack frame is empty?" (index.2.popN n)
    let c ← orFail D "index out of bounds" vals.2.subs[sub.1]?
    let off ← orFail D "index out of bounds" (signalOffset c mapped code index.1)
    let signals ← orFail D "range end index out of range" (writeSlice vals.2.signals off vals.1.reverse)
    let s ← provide D runSub sub.1 c n { vals.2 with signals := signals }
    pure s.next

/-- `/repo/co-circom/circom-mpc-vm/src/mpc_vm.rs:554-562` -/
def opAssert (s : St V) : m (St V) := do
  let r ← orFail D "stack frame is empty?" s.pop
  let z ← D.isZero r.1 true
  if z then D.fail (.err "Assertion failed during execution")
  else pure r.2.next

/-- A branch on a condition that is not shared. `/repo/co-circom/circom-mpc-vm/src/mpc_vm.rs:568-576` -/
def branchPublic (jump : Nat) (cond : V) (s : St V) : m (St V) := do
  let z ← D.isZero cond false
  pure { s with ifs := .pub :: s.ifs, ip := if z then s.ip + jump else s.ip + 1 }

/-- A branch on a shared condition. `/repo/co-circom/circom-mpc-vm/src/mpc_vm.rs:565-567` -/
def branchShared (cond : V) (s : St V) : m (St V) := do
  let ifs ← pushShared D s.ifs cond
  pure { s with ifs := ifs }.next

/-- `/repo/co-circom/circom-mpc-vm/src/mpc_vm.rs:563-577` -/
def opBranch (jump : Nat) (s : St V) : m (St V) := do
  let r ← orFail D "stack frame is empty?" s.pop
  let sh ← D.isShared r.1
  if sh then branchShared D r.1 r.2 else branchPublic D jump r.1 r.2

/-- The end of the first branch of a secret `if`. `/repo/co-circom/circom-mpc-vm/src/mpc_vm.rs:587-595`,
`toggle_last_shared` 188-201 -/
def toggle (jump : Nat) (last cond : V) (r : List (IfCtx V)) (s : St V) : m (St V) :=
  if jump = 0 then pure { s with ifs := r }.next
  else do
    let n ← D.boolNot cond
    let acc ← D.bin .boolAnd last n
    pure { s with ifs := .shared last acc cond :: r }.next

/-- `/repo/co-circom/circom-mpc-vm/src/mpc_vm.rs:578-596` -/
def opEndTruthyBranch (jump : Nat) (s : St V) : m (St V) :=
  match s.ifs with
  | [] => D.fail (.panic "must be here")
  | .pub :: r => pure { s with ifs := r, ip := s.ip + max 1 jump }
  | .shared last _ cond :: r => toggle D jump last cond r s

/-- `/repo/co-circom/circom-mpc-vm/src/mpc_vm.rs:597-599` -/
def opEndFalsyBranch (s : St V) : m (St V) :=
  match s.ifs with
  | [] => D.fail (.panic "must be here")
  | _ :: r => pure { s with ifs := r }.next

/-- The divisor of a division within secret branches: one unless the condition of the branches holds.
`/repo/co-circom/circom-mpc-vm/src/mpc_vm.rs:618-621` -/
def guardDivisor (op : BinOp) (ifs : List (IfCtx V)) (rhs : V) : m V :=
  match op, sharedCond ifs with
  | .div, some c => D.cmux c rhs D.one
  | _, _ => pure rhs

/-- The binary operations. `/repo/co-circom/circom-mpc-vm/src/mpc_vm.rs:600-720` -/
def opBin (op : BinOp) (s : St V) : m (St V) := do
  let r ← orFail D "stack frame is empty?" s.pop
  let l ← orFail D "stack frame is empty?" r.2.pop
  let rhs ← guardDivisor D op s.ifs r.1
  let v ← D.bin op l.1 rhs
  let s ← orFail D "stack is empty and you want to push?" (l.2.push v)
  pure s.next

/-- `/repo/co-circom/circom-mpc-vm/src/mpc_vm.rs:635-638` -/
def opNeg (s : St V) : m (St V) := do
  let r ← orFail D "stack frame is empty?" s.pop
  let v ← D.neg r.1
  let s ← orFail D "stack is empty and you want to push?" (r.2.push v)
  pure s.next

/-- One step of the comparison of vectors. `/repo/co-circom/circom-mpc-vm/src/mpc_vm.rs:675-678` -/
def eqStep (acc : V) (x : V × V) : m V := do
  let cmp ← D.bin .eq x.1 x.2
  D.bin .boolAnd cmp acc

/-- `/repo/co-circom/circom-mpc-vm/src/mpc_vm.rs:664-680` -/
def opEqN (n : Nat) (s : St V) : m (St V) := do
  let r ← orFail D "stack frame is empty?" (s.popN n)
  let l ← orFail D "stack frame is empty?" (r.2.popN n)
  let v ← (l.1.zip r.1).foldlM (eqStep D) D.one
  let s ← orFail D "stack is empty and you want to push?" (l.2.push v)
  pure s.next

/-- `AddIndex`, `MulIndex`. `/repo/co-circom/circom-mpc-vm/src/mpc_vm.rs:721-730` -/
def opIdx (f : Nat → Nat → Nat) (s : St V) : m (St V) := do
  let r ← orFail D "stack frame is empty?" s.popIdx
  let l ← orFail D "stack frame is empty?" r.2.popIdx
  let s ← orFail D "stack is empty and you want to push?" (l.2.pushIdx (f l.1 r.1))
  pure s.next

/-- `/repo/co-circom/circom-mpc-vm/src/mpc_vm.rs:731-734` -/
def opToIndex (s : St V) : m (St V) := do
  let r ← orFail D "stack frame is empty?" s.pop
  let k ← D.toIndex r.1
  let s ← orFail D "stack is empty and you want to push?" (r.2.pushIdx k)
  pure s.next

/-- `/repo/co-circom/circom-mpc-vm/src/mpc_vm.rs:735-738` -/
def opJumpBack (jump : Nat) (s : St V) : m (St V) :=
  if jump ≤ s.ip then pure { s with ip := s.ip - jump } else D.fail (.panic "attempt to subtract with overflow")

/-- `/repo/co-circom/circom-mpc-vm/src/mpc_vm.rs:740-747` -/
def opJumpIfFalse (jump : Nat) (s : St V) : m (St V) := do
  let r ← orFail D "stack frame is empty?" s.pop
  let z ← D.isZero r.1 false
  pure { r.2 with ip := if z then r.2.ip + jump else r.2.ip + 1 }

/-- One factor of the condition of a return. -/
def returnStep (acc : V) (x : V × List V) : m V := do
  let n ← D.boolNot x.1
  D.bin .boolAnd acc n

/-- The condition that the function has not returned before, and `start`.
`/repo/co-circom/circom-mpc-vm/src/mpc_vm.rs:759-763, 774-778, 803-807, 821-825` -/
def returnCond (start : V) (ret : List (V × List V)) : m V := ret.foldlM (returnStep D) start

/-- One return value of `handle_shared_fun_return`: the sum is taken over the positions that both vectors have.
`/repo/co-circom/circom-mpc-vm/src/mpc_vm.rs:890-903` -/
def sumStep (acc : List V) (x : V × List V) : m (List V) := do
  let xs ← x.2.mapM fun v => D.bin .mul x.1 v
  let r ← (acc.zip xs).mapM fun y => D.bin .add y.1 y.2
  pure (r ++ acc.drop xs.length)

/-- `handle_shared_fun_return`, which leaves the stack frames of the function on the stack.
`/repo/co-circom/circom-mpc-vm/src/mpc_vm.rs:884-908` -/
def sharedReturn (s : St V) : m (St V) := do
  let acc ← s.sharedRet.foldlM (sumStep D) (List.replicate s.returnVals D.zero)
  orFail D "stack is empty and you want to push?" (s.pushAll acc)

/-- `ReturnSharedIfFun`. `/repo/co-circom/circom-mpc-vm/src/mpc_vm.rs:849-858` -/
def opReturnSharedIfFun (s : St V) : m (St V) := do
  let s ← sharedReturn D s
  orFail D "stack frame is empty?" s.leave

/-- A return within secret branches or after one: the values are stored with their condition; the function ends only
outside of secret branches. `/repo/co-circom/circom-mpc-vm/src/mpc_vm.rs:757-782, 800-833`.  In the code a single value is
popped after the condition is computed. -/
def returnLate (vals : List V) (s : St V) : m (St V) := do
  let c ← returnCond D ((sharedCond s.ifs).getD D.one) s.sharedRet
  let s := { s with sharedRet := s.sharedRet ++ [(c, vals)] }
  if (sharedCond s.ifs).isSome then pure s.next else opReturnSharedIfFun D s

/-- Whether a return is stored instead of being done. -/
def returnsLate (s : St V) : Bool := (sharedCond s.ifs).isSome || !s.sharedRet.isEmpty

/-- The immediate return of one value: everything in the frame of the function goes to the frame of the caller; the frame
of indices stays. `/repo/co-circom/circom-mpc-vm/src/mpc_vm.rs:783-791` -/
def returnOne (s : St V) : Option (St V) :=
  match s.fields with
  | f :: r => ({ s with fields := r }.pushAll f.reverse).bind St.leave
  | [] => none

/-- The immediate return of a vector. `/repo/co-circom/circom-mpc-vm/src/mpc_vm.rs:831-839` -/
def returnMany (vals : List V) (s : St V) : Option (St V) :=
  match s.fields, s.idxs with
  | _ :: r, _ :: r' => ({ s with fields := r, idxs := r' }.pushAll vals).bind St.leave
  | _, _ => none

/-- `current_vars.resize(n, zero)` if it is shorter. `/repo/co-circom/circom-mpc-vm/src/mpc_vm.rs:795-799` -/
def padVars (n : Nat) (vars : List V) : List V := vars ++ List.replicate (n - vars.length) D.zero

/-- `ReturnFun` of one value. `/repo/co-circom/circom-mpc-vm/src/mpc_vm.rs:755-791` -/
def returnFunOne (s : St V) : m (St V) :=
  if returnsLate s then do
    let r ← orFail D "stack frame is empty?" s.pop
    returnLate D [r.1] r.2
  else orFail D "cannot pop empty stack" (returnOne s)

/-- `ReturnFun` of a vector. `/repo/co-circom/circom-mpc-vm/src/mpc_vm.rs:792-839` -/
def returnFunMany (s : St V) : m (St V) := do
  let r ← orFail D "stack frame is empty?" s.popIdx
  let vars := padVars D (r.1 + s.returnVals) r.2.vars
  let vals ← orFail D "range end index out of range" (readSlice vars r.1 s.returnVals)
  if returnsLate s then returnLate D vals { r.2 with vars := vars }
  else orFail D "cannot pop empty stack" (returnMany vals r.2)

/-- `ReturnFun`. `/repo/co-circom/circom-mpc-vm/src/mpc_vm.rs:753-848` -/
def opReturnFun (s : St V) : m (St V) :=
  if s.returnVals = 1 then returnFunOne D s else returnFunMany D s

/-- `/repo/co-circom/circom-mpc-vm/src/mpc_vm.rs:859-863` -/
def opLog (ctx : Ctx P) (s : St V) : m (St V) := do
  let r ← orFail D "stack frame is empty?" s.pop
  let _ ← D.log r.1 ctx.leakyLogs
  pure r.2.next

/-- `/repo/co-circom/circom-mpc-vm/src/mpc_vm.rs:361-364` -/
def opPushConstant (ctx : Ctx P) (k : Nat) (s : St V) : m (St V) := do
  let c ← orFail D "index out of bounds" ctx.constants[k]?
  let s ← orFail D "stack is empty and you want to push?" (s.push (D.ofPub c))
  pure s.next

/-- `/repo/co-circom/circom-mpc-vm/src/mpc_vm.rs:365` -/
def opPushIndex (k : Nat) (s : St V) : m (St V) := do
  let s ← orFail D "stack is empty and you want to push?" (s.pushIdx k)
  pure s.next

/-- One instruction other than `Return`; `runSub` runs a sub-component on the signals.
`/repo/co-circom/circom-mpc-vm/src/mpc_vm.rs:357-880` -/
def step (ctx : Ctx P) (runSub : TemplateDecl → Nat → List V → m (List V)) : OpCode → St V → m (St V)
  | .pushConstant k, s => opPushConstant D ctx k s
  | .pushIndex k, s => opPushIndex D k s
  | .loadSignals n, s => opLoadSignals D n s
  | .storeSignals n, s => opStoreSignals D n s
  | .loadVars n, s => opLoadVars D n s
  | .storeVars n, s => opStoreVars D n s
  | .outputSubComp b c n, s => opOutputSubComp D b c n s
  | .inputSubComp b c n, s => opInputSubComp D runSub b c n s
  | .createCmp y n, s => opCreateCmp D ctx runSub y n s
  | .call y n, s => opCall D ctx y n s
  | .ret, s => pure s
  | .returnFun, s => opReturnFun D s
  | .returnSharedIfFun, s => opReturnSharedIfFun D s
  | .assert _, s => opAssert D s
  | .branch j, s => opBranch D j s
  | .endTruthyBranch j, s => opEndTruthyBranch D j s
  | .endFalsyBranch, s => opEndFalsyBranch D s
  | .bin op, s => opBin D op s
  | .neg, s => opNeg D s
  | .eqN n, s => opEqN D n s
  | .mulIndex, s => opIdx D (· * ·) s
  | .addIndex, s => opIdx D (· + ·) s
  | .toIndex, s => opToIndex D s
  | .jumpBack j, s => opJumpBack D j s
  | .jumpIfFalse j, s => opJumpIfFalse D j s
  | .log, s => opLog D ctx s
  | .logString k, s => if ctx.strings ≤ k then D.fail (.err "trying to access string") else pure s.next
  | .logFlush _, s => pure s.next

/-! ### Components -/

/-- `/repo/co-circom/circom-mpc-vm/src/accelerator.rs:199-212` -/
def accelNum2bits (args : List V) (outputs : Nat) : m (List V × List V) :=
  match args with
  | [x] => do
    let r ← D.num2bits x outputs
    pure (r, [])
  | _ => D.fail (.err "Calling Num2Bits accelerator with more than one argument!")

/-- `/repo/co-circom/circom-mpc-vm/src/accelerator.rs:214-228` -/
def accelAddbits (args : List V) : m (List V × List V) :=
  if args.length % 2 ≠ 0 then D.fail (.err "Calling AddBits accelerator with odd number of arguments!")
  else do
    let r ← D.addbits (args.take (args.length / 2)) (args.drop (args.length / 2))
    pure (r.1, [r.2])

/-- `/repo/co-circom/circom-mpc-vm/src/accelerator.rs:230-245` -/
def accelIsZero (args : List V) : m (List V × List V) :=
  match args with
  | [x] => do
    let isZero ← D.bin .eq x D.zero
    let input ← D.bin .add x isZero
    let inv ← D.bin .div D.one input
    let helper ← D.bin .sub inv isZero
    pure ([isZero], [helper])
  | _ => D.fail (.err "Calling IsZero accelerator with more than one argument!")

/-- The accelerators for components. -/
inductive Accel where
  | num2bits | addbits | isZero | poseidon2

/-- `has_cmp_accelerator`, and the exception for Poseidon2. `/repo/co-circom/circom-mpc-vm/src/mpc_vm.rs:328-334` -/
def accelOf (ctx : Ctx P) (decl : TemplateDecl) : Option Accel :=
  if ctx.accel.num2bits && decl.name == "Num2Bits" then some .num2bits
  else if ctx.accel.addbits && decl.name == "AddBits" then some .addbits
  else if ctx.accel.iszero && decl.name == "IsZero" then some .isZero
  else if ctx.accel.poseidon2 && decl.name == "Poseidon2" &&
      !(decl.inputSignals == 8 || decl.inputSignals == 12 || decide (16 < decl.inputSignals)) then some .poseidon2
  else none

/-- `run_cmp_accelerator`. `/repo/co-circom/circom-mpc-vm/src/accelerator.rs:276-288` -/
def runAccel (decl : TemplateDecl) (args : List V) : Accel → m (List V × List V)
  | .num2bits => accelNum2bits D args decl.outputSignals
  | .addbits => accelAddbits D args
  | .isZero => accelIsZero D args
  | .poseidon2 => D.fail (.panic "not modelled: Poseidon2")

/-- `/repo/co-circom/circom-mpc-vm/src/mpc_vm.rs:336-354` -/
def accelerate (decl : TemplateDecl) (offset : Nat) (signals : List V) (a : Accel) : m (List V) := do
  let inputs ← orFail D "range end index out of range" (readSlice signals (offset + decl.outputSignals) decl.inputSignals)
  let r ← runAccel D decl inputs a
  if r.1.length ≠ decl.outputSignals then D.fail (.panic "source slice length does not match destination slice length")
  else do
    let signals ← orFail D "range end index out of range" (writeSlice signals offset r.1)
    orFail D "range end index out of range"
      (writeSlice signals (offset + decl.outputSignals + decl.inputSignals) r.2)

/-- The state of a component that starts. `/repo/co-circom/circom-mpc-vm/src/mpc_vm.rs:266-285, 320-323` -/
def St.init (decl : TemplateDecl) (offset : Nat) (signals : List V) : St V where
  ip := 0
  body := decl.body
  vars := List.replicate decl.vars D.zero
  sharedRet := []
  offset := offset
  fields := [[]]
  idxs := [[]]
  ifs := []
  funs := []
  returnVals := 0
  subs := []
  signals := signals

/-- The start of a component: its accelerator, or `run` which runs its code.
`/repo/co-circom/circom-mpc-vm/src/mpc_vm.rs:313-356` -/
def runComp (ctx : Ctx P) (run : St V → m (List V)) (decl : TemplateDecl) (offset : Nat) (signals : List V) : m (List V) :=
  match accelOf ctx decl with
  | some a => accelerate D decl offset signals a
  | none => run (St.init D decl offset signals)

/-- The loop of a component, until `Return`; the result is the signals.
`/repo/co-circom/circom-mpc-vm/src/mpc_vm.rs:357-882` -/
def loop (ctx : Ctx P) : Nat → St V → m (List V)
  | 0, _ => D.fail (.panic "out of fuel")
  | n + 1, s => do
    let op ← orFail D "index out of bounds" s.body[s.ip]?
    if op = .ret then pure s.signals
    else do
      let s ← step D ctx (runComp D ctx (loop ctx n)) op s
      loop ctx n s

/-! ### The whole witness extension -/

/-- The compiled program, without what is in `Ctx`. `CoCircomCompilerParsed`,
`/repo/co-circom/circom-mpc-vm/src/types.rs:112-130` -/
structure Program where
  main : String
  amountSignals : Nat
  signalToWitness : List Nat
  mainInputs : Nat
  mainOutputs : Nat
  mainInputList : List (String × Nat × Nat)

/-- `BTreeMap::remove` -/
def removeKey {α : Type} (name : String) : List (String × α) → Option (α × List (String × α))
  | [] => none
  | (k, v) :: r => if k = name then some (v, r) else (removeKey name r).map fun x => (x.1, (k, v) :: x.2)

/-- The names of an input and the signals they go to. `/repo/co-circom/circom-mpc-vm/src/mpc_vm.rs:958-974` -/
def inputNames (x : String × Nat × Nat) : List (String × Nat) :=
  if x.2.2 = 1 then [(x.1, x.2.1)]
  else (List.range x.2.2).map fun i => (x.1 ++ "[" ++ toString i ++ "]", x.2.1 + i)

/-- One input. -/
def setInput (acc : List V × List (String × V)) (x : String × Nat) : m (List V × List (String × V)) :=
  match removeKey x.1 acc.2 with
  | none => D.fail (.err "Cannot find signal in provided input")
  | some r => do
    let signals ← orFail D "index out of bounds" (writeSlice acc.1 x.2 [r.1])
    pure (signals, r.2)

/-- `set_input_signals`. `/repo/co-circom/circom-mpc-vm/src/mpc_vm.rs:957-977` -/
def setInputs (prog : Program) (signals : List V) (inputs : List (String × V)) : m (List V) := do
  let r ← (prog.mainInputList.flatMap inputNames).foldlM (setInput D) (signals, inputs)
  pure r.1

/-- `set_flat_input_signals`. `/repo/co-circom/circom-mpc-vm/src/mpc_vm.rs:979-987` -/
def setFlatInputs (prog : Program) (signals inputs : List V) : m (List V) :=
  if prog.mainInputs ≠ inputs.length then D.fail (.panic "You have to provide the input signals")
  else orFail D "range end index out of range" (writeSlice signals (1 + prog.mainOutputs) inputs)

/-- The signals before the inputs are set. `/repo/co-circom/circom-mpc-vm/src/mpc_vm.rs:1151-1152` -/
def initSignals (prog : Program) : m (List V) :=
  orFail D "index out of bounds" (writeSlice (List.replicate prog.amountSignals D.zero) 0 [D.one])

/-- `call_main_component`. `/repo/co-circom/circom-mpc-vm/src/mpc_vm.rs:989-998` -/
def callMain (prog : Program) (ctx : Ctx P) (fuel : Nat) (signals : List V) : m (List V) :=
  match ctx.templDecls prog.main with
  | none => D.fail (.err "cannot find main template")
  | some decl => runComp D ctx (loop D ctx fuel) decl 1 signals

/-- `post_processing`: the first entries of the witness are opened.
`/repo/co-circom/circom-mpc-vm/src/mpc_vm.rs:912-935` -/
def finish (prog : Program) (publicInputs : Nat) (signals : List V) : m (List P × List A) :=
  let total := prog.mainOutputs + publicInputs + 1
  if prog.signalToWitness.length < total then D.fail (.panic "capacity overflow")
  else do
    let pub ← (prog.signalToWitness.take total).mapM fun k => do
      let v ← orFail D "index out of bounds" signals[k]?
      D.openV v
    let wit ← (prog.signalToWitness.drop total).mapM fun k => do
      let v ← orFail D "index out of bounds" signals[k]?
      D.toShare v
    pure (pub, wit)

/-- `run`; `config` is the serialised `VMConfig`. `/repo/co-circom/circom-mpc-vm/src/mpc_vm.rs:1030-1039` -/
def run (prog : Program) (ctx : Ctx P) (config : List Bool) (fuel : Nat) (inputs : List (String × V)) (publicInputs : Nat) :
    m (List P × List A) := do
  D.compareConfig config
  let signals ← initSignals D prog
  let signals ← setInputs D prog signals inputs
  let signals ← callMain D prog ctx fuel signals
  finish D prog publicInputs signals

/-- `run_with_flat`. `/repo/co-circom/circom-mpc-vm/src/mpc_vm.rs:1062-1070` -/
def runFlat (prog : Program) (ctx : Ctx P) (fuel : Nat) (inputs : List V) (publicInputs : Nat) : m (List P × List A) := do
  let signals ← initSignals D prog
  let signals ← setFlatInputs D prog signals inputs
  let signals ← callMain D prog ctx fuel signals
  finish D prog publicInputs signals

end

end Verif.CircomVm
