import Verif.CircomVm.Vm

/-!
# Compiled circom code

The instructions of circom's intermediate representation without functions, and the bytecode that the compiler emits for
them.  An expression has a type: an index, or a number of field elements.

Models: `/repo/co-circom/circom-mpc-compiler/src/lib.rs:245-470, 596-651`.
-/

namespace Verif.CircomVm

/-- What an expression leaves on the stacks. -/
inductive Ty where
  | idx
  | fld (n : Nat)

/-- `ValueBucket`, `LoadBucket` and `ComputeBucket`. -/
inductive Expr : Ty → Type where
  | const (k : Nat) : Expr (.fld 1)
  | lit (k : Nat) : Expr .idx
  | vars (n : Nat) (loc : Expr .idx) : Expr (.fld n)
  | signals (n : Nat) (loc : Expr .idx) : Expr (.fld n)
  | output (mapped : Bool) (code n : Nat) (loc cmp : Expr .idx) : Expr (.fld n)
  | bin (op : BinOp) (a b : Expr (.fld 1)) : Expr (.fld 1)
  | neg (a : Expr (.fld 1)) : Expr (.fld 1)
  | eq (n : Nat) (a b : Expr (.fld n)) : Expr (.fld 1)
  | toIndex (a : Expr (.fld 1)) : Expr .idx
  | add (a b : Expr .idx) : Expr .idx
  | mul (a b : Expr .idx) : Expr .idx

/-- What an expression leaves on the stack of indices or of field elements. -/
def Ty.Val (V : Type) : Ty → Type
  | .idx => Nat
  | .fld _ => List V

/-- `handle_value_bucket`, `handle_load_bucket`, `handle_compute_bucket`.  A mapped location has one index; the compiler
emits `PushIndex(0)` if there is none.
`/repo/co-circom/circom-mpc-compiler/src/lib.rs:333-429, 613-619` -/
def Expr.code : {t : Ty} → Expr t → List OpCode
  | _, .const k => [.pushConstant k]
  | _, .lit k => [.pushIndex k]
  | _, .vars n loc => loc.code ++ [.loadVars n]
  | _, .signals n loc => loc.code ++ [.loadSignals n]
  | _, .output mapped c n loc cmp => loc.code ++ (cmp.code ++ [.outputSubComp mapped c n])
  | _, .bin op a b => a.code ++ (b.code ++ [.bin op])
  | _, .neg a => a.code ++ [.neg]
  | _, .eq n a b => a.code ++ (b.code ++ [.eqN n])
  | _, .toIndex a => a.code ++ [.toIndex]
  | _, .add a b => a.code ++ (b.code ++ [.addIndex])
  | _, .mul a b => a.code ++ (b.code ++ [.mulIndex])

/-- `StoreBucket`, `CreateCmpBucket`, `BranchBucket` (with an else branch, `ite`, and without, `ifThen`), `LoopBucket`,
`AssertBucket`, and the parts of a `LogBucket`. -/
inductive Stmt where
  | skip
  | seq (a b : Stmt)
  | storeVars (n : Nat) (src : Expr (.fld n)) (loc : Expr .idx)
  | storeSignals (n : Nat) (src : Expr (.fld n)) (loc : Expr .idx)
  | storeInput (mapped : Bool) (code n : Nat) (src : Expr (.fld n)) (loc cmp : Expr .idx)
  | create (symbol : String) (offset jump n : Nat)
  | ite (c : Expr (.fld 1)) (t e : Stmt)
  | ifThen (c : Expr (.fld 1)) (t : Stmt)
  | loop (c : Expr (.fld 1)) (b : Stmt)
  | assert (line : Nat) (e : Expr (.fld 1))
  | log (e : Expr (.fld 1))
  | logString (k : Nat)
  | logFlush (line : Nat)

/-- `handle_store_bucket` 303-311, `emit_store_opcodes` 245-287, `handle_create_cmp_bucket` 431-438, `handle_branch_bucket`
451-466, `handle_loop_bucket` 440-449, `handle_assert_bucket` 468-474 and `handle_log_bucket` 596-611 (with `debug`) of
`/repo/co-circom/circom-mpc-compiler/src/lib.rs`. -/
def Stmt.code : Stmt → List OpCode
  | .skip => []
  | .seq a b => a.code ++ b.code
  | .storeVars n src loc => src.code ++ (loc.code ++ [.storeVars n])
  | .storeSignals n src loc => src.code ++ (loc.code ++ [.storeSignals n])
  | .storeInput mapped c n src loc cmp => src.code ++ (loc.code ++ (cmp.code ++ [.inputSubComp mapped c n]))
  | .create symbol offset jump n => [.pushIndex offset, .pushIndex jump, .createCmp symbol n]
  | .ite c t e => c.code ++ (.branch (t.code.length + 2) :: (t.code ++
      (.endTruthyBranch (e.code.length + 2) :: (e.code ++ [.endFalsyBranch]))))
  | .ifThen c t => c.code ++ (.branch (t.code.length + 2) :: (t.code ++ [.endTruthyBranch 0]))
  | .loop c b => c.code ++ (.jumpIfFalse (b.code.length + 2) ::
      (b.code ++ [.jumpBack (b.code.length + c.code.length + 1)]))
  | .assert line e => e.code ++ [.assert line]
  | .log e => e.code ++ [.log]
  | .logString k => [.logString k]
  | .logFlush line => [.logFlush line]

/-- The templates are compiled from statements.
`/repo/co-circom/circom-mpc-compiler/src/lib.rs:731-759` -/
def Compiled {P : Type} (ctx : Ctx P) : Prop :=
  ∀ name decl, ctx.templDecls name = some decl → ∃ c : Stmt, decl.body = c.code ++ [.ret]

/-! ### Runs that are checked for what is wrong within secret branches -/

section

variable {m : Type → Type} [Monad m] {V P A : Type} (D : Driver m V P A) (ok : List (IfCtx V) → Bool)

/-- An `if` without else branch whose condition is public and false. -/
def elseLess (jump : Nat) (s : St V) : m Bool :=
  if s.body[s.ip + jump - 1]? = some (.endTruthyBranch 0) then do
    let r ← orFail D "stack frame is empty?" s.pop
    let sh ← D.isShared r.1
    if sh then pure false else D.isZero r.1 false
  else pure false

/-- Unless the open branches are `ok`, refuse to create a component, and to skip an `if` without an else branch (the VM
then forgets to close the `if`). -/
def guard (s : St V) : OpCode → m Unit
  | .createCmp _ _ => if ok s.ifs then pure () else D.fail (.err "component within a secret branch")
  | .branch j => if ok s.ifs then pure () else do
      let b ← elseLess D j s
      if b then D.fail (.err "skipped branch within a secret branch") else pure ()
  | _ => pure ()

/-- `loop` with `guard`. -/
def loopC (ctx : Ctx P) : Nat → St V → m (List V)
  | 0, _ => D.fail (.panic "out of fuel")
  | n + 1, s => do
    let op ← orFail D "index out of bounds" s.body[s.ip]?
    if op = .ret then pure s.signals
    else do
      guard D ok s op
      let s ← step D ctx (runComp D ctx (loopC ctx n)) op s
      loopC ctx n s

/-- `callMain` with `guard`. -/
def callMainC (prog : Program) (ctx : Ctx P) (fuel : Nat) (signals : List V) : m (List V) :=
  match ctx.templDecls prog.main with
  | none => D.fail (.err "cannot find main template")
  | some decl => runComp D ctx (loopC D ok ctx fuel) decl 1 signals

/-- `run` with `guard`. -/
def runC (prog : Program) (ctx : Ctx P) (config : List Bool) (fuel : Nat) (inputs : List (String × V)) (publicInputs : Nat) :
    m (List P × List A) := do
  D.compareConfig config
  let signals ← initSignals D prog
  let signals ← setInputs D prog signals inputs
  let signals ← callMainC D ok prog ctx fuel signals
  finish D prog publicInputs signals

end

end Verif.CircomVm
