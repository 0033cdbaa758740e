import Verif.CircomVm.Source
import Mathlib.Data.ZMod.ValMinAbs

/-!
# The meaning of circom statements

A big-step semantics of `Stmt` (`Verif/CircomVm/Source.lean`) over a prime field, with neither stacks nor jumps.  `Env`
has the local variables of the template, the signals of the whole circuit and the components which the template has
created; the signals of the template start at `base`.
-/

namespace Verif.Spec.Circom

open Verif.CircomVm

variable {p : Nat}

/-- The operators on field elements.  Comparisons are of representatives between `-p / 2` and `p / 2`, bit operations and
integer division of representatives between `0` and `p - 1`.  Logical operators are for bits. -/
def operator [NeZero p] : BinOp → ZMod p → ZMod p → Option (ZMod p)
  | .add, a, b => some (a + b)
  | .sub, a, b => some (a - b)
  | .mul, a, b => some (a * b)
  | .div, a, b => if b = 0 then none else some (a * b⁻¹)
  | .intDiv, a, b => if b = 0 then none else some (a.val / b.val : Nat)
  | .mod, a, b => if b = 0 then none else some (a.val % b.val : Nat)
  | .pow, a, b => some (a ^ b.val)
  | .lt, a, b => some (if a.valMinAbs < b.valMinAbs then 1 else 0)
  | .le, a, b => some (if a.valMinAbs ≤ b.valMinAbs then 1 else 0)
  | .gt, a, b => some (if a.valMinAbs > b.valMinAbs then 1 else 0)
  | .ge, a, b => some (if a.valMinAbs ≥ b.valMinAbs then 1 else 0)
  | .eq, a, b => some (if a = b then 1 else 0)
  | .neq, a, b => some (if a = b then 0 else 1)
  | .shiftL, a, b => if b.val < 2 ^ 64 then some (a * 2 ^ b.val) else none
  | .shiftR, a, b => if b.val < 2 ^ 64 then some (a.val / 2 ^ b.val : Nat) else none
  | .boolAnd, a, b => if a.val < 2 ^ 64 ∧ b.val < 2 ^ 64 then some (if a.val = 1 ∧ b.val = 1 then 1 else 0) else none
  | .boolOr, a, b => if a.val < 2 ^ 64 ∧ b.val < 2 ^ 64 then some (if a.val = 1 ∨ b.val = 1 then 1 else 0) else none
  | .bitOr, a, b => some (a.val ||| b.val : Nat)
  | .bitAnd, a, b => some (a.val &&& b.val : Nat)
  | .bitXor, a, b => some (a.val ^^^ b.val : Nat)

/-- The state of a template. -/
structure Env (p : Nat) where
  vars : List (ZMod p)
  signals : List (ZMod p)
  comps : List Comp

/-- `n` values of `l` from position `k`. -/
def Get {α : Type} (l : List α) (k n : Nat) (v : List α) : Prop := k + n ≤ l.length ∧ v = (l.drop k).take n

/-- `l'` is `l` with `v` from position `k`. -/
def Put {α : Type} (l : List α) (k : Nat) (v l' : List α) : Prop :=
  k + v.length ≤ l.length ∧ l' = l.take k ++ v ++ l.drop (k + v.length)

/-- The position of the signal `k` of a component, or of its parameter `code` displaced by `k`. -/
def Position (c : Comp) (mapped : Bool) (code k pos : Nat) : Prop :=
  if mapped then ∃ start, c.decl.mappings[code]? = some start ∧ pos = c.offset + start + k else pos = c.offset + k

/-- The value of an expression. -/
def Value [NeZero p] (constants : List (ZMod p)) (base : Nat) (env : Env p) : {t : Ty} → Expr t → t.Val (ZMod p) → Prop
  | _, .const k, (v : List (ZMod p)) => ∃ c, constants[k]? = some c ∧ v = [c]
  | _, .lit k, (v : Nat) => v = k
  | _, .vars n loc, (v : List (ZMod p)) => ∃ k : Nat, Value constants base env loc k ∧ Get env.vars k n v
  | _, .signals n loc, (v : List (ZMod p)) => ∃ k : Nat, Value constants base env loc k ∧ Get env.signals (base + k) n v
  | _, .output mapped code n loc cmp, (v : List (ZMod p)) => ∃ (k j : Nat) (c : Comp) (pos : Nat),
      Value constants base env loc k ∧ Value constants base env cmp j ∧ env.comps[j]? = some c ∧
      Position c mapped code k pos ∧ Get env.signals pos n v
  | _, .bin op a b, (v : List (ZMod p)) => ∃ x y z : ZMod p, Value constants base env a [x] ∧ Value constants base env b [y] ∧
      operator op x y = some z ∧ v = [z]
  | _, .neg a, (v : List (ZMod p)) => ∃ x : ZMod p, Value constants base env a [x] ∧ v = [-x]
  | _, .eq _ a b, (v : List (ZMod p)) => ∃ x y : List (ZMod p), Value constants base env a x ∧ Value constants base env b y ∧
      v = [if x = y then 1 else 0]
  | _, .toIndex a, (v : Nat) => ∃ x : ZMod p, Value constants base env a [x] ∧ x.val < 2 ^ 64 ∧ v = x.val
  | _, .add a b, (v : Nat) => ∃ x y : Nat, Value constants base env a x ∧ Value constants base env b y ∧ v = x + y
  | _, .mul a b, (v : Nat) => ∃ x y : Nat, Value constants base env a x ∧ Value constants base env b y ∧ v = x * y

/-- A template starts. -/
def start (decl : TemplateDecl) (signals : List (ZMod p)) : Env p := ⟨List.replicate decl.vars 0, signals, []⟩

/-- The executions of statements.  A component runs when it has got all of its inputs. -/
inductive Exec [NeZero p] (ctx : Ctx (ZMod p)) : Stmt → Nat → Env p → Env p → Prop where
  | skip {base env} : Exec ctx .skip base env env
  | seq {a b base env env₁ env₂} : Exec ctx a base env env₁ → Exec ctx b base env₁ env₂ → Exec ctx (.seq a b) base env env₂
  | storeVars {n} {src : Expr (.fld n)} {loc : Expr .idx} {base env} {v : List (ZMod p)} {k : Nat} {vars} :
      Value ctx.constants base env src v → Value ctx.constants base env loc k → Put env.vars k v vars →
      Exec ctx (.storeVars n src loc) base env { env with vars := vars }
  | storeSignals {n} {src : Expr (.fld n)} {loc : Expr .idx} {base env} {v : List (ZMod p)} {k : Nat} {signals} :
      Value ctx.constants base env src v → Value ctx.constants base env loc k → Put env.signals (base + k) v signals →
      Exec ctx (.storeSignals n src loc) base env { env with signals := signals }
  /-- More inputs are missing. -/
  | inputWait {mapped code n} {src : Expr (.fld n)} {loc cmp : Expr .idx} {base env} {v : List (ZMod p)} {k j : Nat}
      {c pos signals} :
      Value ctx.constants base env src v → Value ctx.constants base env loc k → Value ctx.constants base env cmp j →
      env.comps[j]? = some c → Position c mapped code k pos → Put env.signals pos v signals →
      c.provided + n ≠ c.decl.inputSignals →
      Exec ctx (.storeInput mapped code n src loc cmp) base env
        { env with signals := signals, comps := env.comps.set j { c with provided := c.provided + n } }
  /-- The last inputs. -/
  | inputRun {mapped code n} {src : Expr (.fld n)} {loc cmp : Expr .idx} {base env} {v : List (ZMod p)} {k j : Nat}
      {c pos signals body env'} :
      Value ctx.constants base env src v → Value ctx.constants base env loc k → Value ctx.constants base env cmp j →
      env.comps[j]? = some c → Position c mapped code k pos → Put env.signals pos v signals →
      c.provided + n = c.decl.inputSignals → c.ran = false →
      c.decl.body = body.code ++ [.ret] → Exec ctx body c.offset (start c.decl signals) env' →
      Exec ctx (.storeInput mapped code n src loc cmp) base env
        { env with signals := env'.signals, comps := env.comps.set j { c with provided := c.provided + n, ran := true } }
  | createNone {symbol offset jump base env decl} : ctx.templDecls symbol = some decl →
      Exec ctx (.create symbol offset jump 0) base env env
  | createWait {symbol offset jump n base env decl env'} : ctx.templDecls symbol = some decl → decl.inputSignals ≠ 0 →
      Exec ctx (.create symbol (offset + jump) jump n) base
        { env with comps := env.comps ++ [⟨decl, base + offset, 0, false⟩] } env' →
      Exec ctx (.create symbol offset jump (n + 1)) base env env'
  /-- A component without inputs. -/
  | createRun {symbol offset jump n base env decl body env₁ env'} : ctx.templDecls symbol = some decl →
      decl.inputSignals = 0 → decl.body = body.code ++ [.ret] →
      Exec ctx body (base + offset) (start decl env.signals) env₁ →
      Exec ctx (.create symbol (offset + jump) jump n) base
        { env with signals := env₁.signals, comps := env.comps ++ [⟨decl, base + offset, 0, true⟩] } env' →
      Exec ctx (.create symbol offset jump (n + 1)) base env env'
  | iteTrue {c : Expr (.fld 1)} {t e base env env'} {v : ZMod p} : Value ctx.constants base env c [v] → v ≠ 0 →
      Exec ctx t base env env' → Exec ctx (.ite c t e) base env env'
  | iteFalse {c : Expr (.fld 1)} {t e base env env'} : Value ctx.constants base env c [0] →
      Exec ctx e base env env' → Exec ctx (.ite c t e) base env env'
  | ifTrue {c : Expr (.fld 1)} {t base env env'} {v : ZMod p} : Value ctx.constants base env c [v] → v ≠ 0 →
      Exec ctx t base env env' → Exec ctx (.ifThen c t) base env env'
  | ifFalse {c : Expr (.fld 1)} {t base env} : Value ctx.constants base env c [0] → Exec ctx (.ifThen c t) base env env
  | loopDone {c : Expr (.fld 1)} {b base env} : Value ctx.constants base env c [0] → Exec ctx (.loop c b) base env env
  | loopStep {c : Expr (.fld 1)} {b base env env₁ env₂} {v : ZMod p} : Value ctx.constants base env c [v] → v ≠ 0 →
      Exec ctx b base env env₁ → Exec ctx (.loop c b) base env₁ env₂ → Exec ctx (.loop c b) base env env₂
  | assert {line} {e : Expr (.fld 1)} {base env} {v : ZMod p} : Value ctx.constants base env e [v] → v ≠ 0 →
      Exec ctx (.assert line e) base env env
  | log {e : Expr (.fld 1)} {base env} {v : ZMod p} : Value ctx.constants base env e [v] → Exec ctx (.log e) base env env
  | logString {k base env} : k < ctx.strings → Exec ctx (.logString k) base env env
  | logFlush {line base env} : Exec ctx (.logFlush line) base env env

/-- The input `name` of the program is the signal `pos`: an input of one signal has its name, the signals of another one
have an index behind it. -/
def InputAt (prog : Program) (name : String) (pos : Nat) : Prop :=
  ∃ n first size, (n, first, size) ∈ prog.mainInputList ∧
    (size = 1 ∧ name = n ∧ pos = first ∨ size ≠ 1 ∧ ∃ i < size, name = n ++ "[" ++ toString i ++ "]" ∧ pos = first + i)

/-- The signals when the main component starts: the constant one, the inputs, and zero for all others. -/
def Inputs (prog : Program) (inputs : List (String × ZMod p)) (signals : List (ZMod p)) : Prop :=
  signals.length = prog.amountSignals ∧ signals[0]? = some 1 ∧
  (∀ name pos, InputAt prog name pos → ∃ v, (name, v) ∈ inputs ∧ signals[pos]? = some v) ∧
  ∀ k, 0 < k → k < prog.amountSignals → (∀ name, ¬ InputAt prog name k) → signals[k]? = some 0

/-- The witness of a program: the main component is executed from signal 1 on, and the witness has the values of the
signals in the order of `signalToWitness`; the outputs and the first `publicInputs` inputs are public. -/
def Witness [NeZero p] (prog : Program) (ctx : Ctx (ZMod p)) (inputs : List (String × ZMod p)) (publicInputs : Nat)
    (pub wit : List (ZMod p)) : Prop :=
  ∃ signals decl body env', Inputs prog inputs signals ∧ ctx.templDecls prog.main = some decl ∧
    decl.body = body.code ++ [.ret] ∧ Exec ctx body 1 (start decl signals) env' ∧
    prog.signalToWitness.map (fun k => env'.signals[k]?) = (pub ++ wit).map some ∧
    pub.length = 1 + prog.mainOutputs + publicInputs

end Verif.Spec.Circom
