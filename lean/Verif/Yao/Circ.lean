import Verif.Yao.Gate
import Verif.Rep3.State

/-!
# Circuits and the parties that run them

The circuits of `/repo/mpc-core/src/protocols/rep3/yao/circuits.rs` are functions generic over a back
end (`FancyBinary + FancyBinaryConstant`): they issue gate operations one after the other.  `Circ I α` is
the type of such code with wires of type `I`; a `Backend` answers the operations.  There are three back
ends: plain bits, the garbler and the evaluator.
-/

namespace Verif.Yao

/-- Code that issues gate operations: the generic `g: &mut G` functions of
`/repo/mpc-core/src/protocols/rep3/yao/circuits.rs:44-4300`.  `fail` is a panic or an error. -/
inductive Circ (I α : Type) : Type
  | ret (a : α)
  | fail (e : Err)
  | and (a b : I) (k : I → Circ I α)
  | xor (a b : I) (k : I → Circ I α)
  | negate (a : I) (k : I → Circ I α)
  | zero (k : I → Circ I α)
  | one (k : I → Circ I α)

namespace Circ

variable {I α β γ : Type}

/-- Sequencing: run the first part, then the rest. -/
protected def bind : Circ I α → (α → Circ I β) → Circ I β
  | ret a, f => f a
  | fail e, _ => fail e
  | and a b k, f => and a b fun c => (k c).bind f
  | xor a b k, f => xor a b fun c => (k c).bind f
  | negate a k, f => negate a fun c => (k c).bind f
  | zero k, f => zero fun c => (k c).bind f
  | one k, f => one fun c => (k c).bind f

instance : Monad (Circ I) where
  pure := ret
  bind := Circ.bind

theorem bind_def (c : Circ I α) (f : α → Circ I β) : c >>= f = c.bind f := rfl
theorem pure_def (a : α) : (pure a : Circ I α) = ret a := rfl

instance : LawfulMonad (Circ I) := LawfulMonad.mk'
  (id_map := fun x => by
    show Circ.bind x ret = x
    induction x with
    | ret => rfl
    | fail => rfl
    | and a b k ih => simp only [Circ.bind]; exact congrArg _ (funext ih)
    | xor a b k ih => simp only [Circ.bind]; exact congrArg _ (funext ih)
    | negate a k ih => simp only [Circ.bind]; exact congrArg _ (funext ih)
    | zero k ih => simp only [Circ.bind]; exact congrArg _ (funext ih)
    | one k ih => simp only [Circ.bind]; exact congrArg _ (funext ih))
  (pure_bind := fun _ _ => rfl)
  (bind_assoc := fun x f g => by
    show Circ.bind (Circ.bind x f) g = Circ.bind x (fun a => Circ.bind (f a) g)
    induction x with
    | ret => rfl
    | fail => rfl
    | and a b k ih => simp only [Circ.bind]; exact congrArg _ (funext ih)
    | xor a b k ih => simp only [Circ.bind]; exact congrArg _ (funext ih)
    | negate a k ih => simp only [Circ.bind]; exact congrArg _ (funext ih)
    | zero k ih => simp only [Circ.bind]; exact congrArg _ (funext ih)
    | one k ih => simp only [Circ.bind]; exact congrArg _ (funext ih))

/-- `g.and(a, b)` -/
def gAnd (a b : I) : Circ I I := and a b ret

/-- `g.xor(a, b)` -/
def gXor (a b : I) : Circ I I := xor a b ret

/-- `g.negate(a)` -/
def gNot (a : I) : Circ I I := negate a ret

/-- `g.const_zero()`, `/repo/mpc-core/src/protocols/rep3/yao/circuits.rs:18` -/
def constZero : Circ I I := zero ret

/-- `g.const_one()`, `/repo/mpc-core/src/protocols/rep3/yao/circuits.rs:21` -/
def constOne : Circ I I := one ret

/-- `g.or(x, y)`, a default method of `fancy_garbling::FancyBinary`. -/
def gOr (x y : I) : Circ I I := do
  let notx ← gNot x
  let noty ← gNot y
  let z ← gAnd notx noty
  gNot z

/-- `g.mux(b, x, y)`: `x` if `b = 0`, else `y`; a default method of `fancy_garbling::FancyBinary`. -/
def gMux (b x y : I) : Circ I I := do
  let xor ← gXor x y
  let and ← gAnd b xor
  gXor and x

/-- An index out of bounds. -/
def oob : Circ I α := fail (.panic "index out of bounds")

/-- `for item in items { (s, c) = f(item, c); result.push(s) }` -/
def scan (f : γ → β → Circ I (α × γ)) : γ → List β → Circ I (List α × γ)
  | c, [] => pure ([], c)
  | c, b :: bs => do
    let (s, c) ← f c b
    let (ss, c) ← scan f c bs
    pure (s :: ss, c)

end Circ

/-- What a party does on a gate operation: `impl FancyBinary + FancyBinaryConstant`. -/
structure Backend (S I : Type) where
  and : I → I → S → Except Err (I × S)
  xor : I → I → S → Except Err (I × S)
  negate : I → S → Except Err (I × S)
  zero : S → Except Err (I × S)
  one : S → Except Err (I × S)

/-- Run a circuit on a back end. -/
def Circ.run {S I α : Type} (B : Backend S I) : Circ I α → S → Except Err (α × S)
  | ret a, s => .ok (a, s)
  | fail e, _ => .error e
  | and a b k, s => B.and a b s >>= fun r => (k r.1).run B r.2
  | xor a b k, s => B.xor a b s >>= fun r => (k r.1).run B r.2
  | negate a k, s => B.negate a s >>= fun r => (k r.1).run B r.2
  | zero k, s => B.zero s >>= fun r => (k r.1).run B r.2
  | one k, s => B.one s >>= fun r => (k r.1).run B r.2

/-- Evaluation on plain bits: what a circuit computes. -/
def Backend.plain : Backend Unit Bool where
  and a b s := .ok (a && b, s)
  xor a b s := .ok (a ^^ b, s)
  negate a s := .ok (!a, s)
  zero s := .ok (false, s)
  one s := .ok (true, s)

/-- The value of a circuit on plain bits. -/
def Circ.plain {α : Type} (c : Circ Bool α) : Except Err α := (c.run Backend.plain ()).map Prod.fst

/-! ### Garbler -/

/-- `Rep3Garbler`, `/repo/mpc-core/src/protocols/rep3/yao/garbler.rs:25-36`.  `blocks` are the blocks
added so far: the vector `circuit` at party 1, what went into `hash` at party 2. -/
structure Garbler (R : Type) where
  delta : Label
  currentOutput : Nat
  currentGate : Nat
  rng : R
  blocks : List Label
  constZero : Option Label
  constOne : Option Label

namespace Garbler

variable {R : Type}

/-- `add_block_to_circuit`, `/repo/mpc-core/src/protocols/rep3/yao/garbler.rs:67-81` -/
def addBlock (g : Garbler R) (b : Label) : Garbler R := { g with blocks := g.blocks ++ [b] }

/-- `/repo/mpc-core/src/protocols/rep3/yao/garbler.rs:246-251` -/
def and (H : Hash) (a b : Label) (g : Garbler R) : Label × Garbler R :=
  let (gate0, gate1, c) := garbleAndGate H g.currentGate a b g.delta
  (c, (({ g with currentGate := g.currentGate + 1 }).addBlock gate0).addBlock gate1)

/-- `constant(x, 2)`, `/repo/mpc-core/src/protocols/rep3/yao/garbler.rs:227-232` -/
def constant [Sample R Label] (x : Bool) (g : Garbler R) : Label × Garbler R :=
  let (zero, rng) := Sample.sample (α := Label) g.rng
  (zero, ({ g with rng := rng }).addBlock (zero ^^^ g.delta.cmul x))

/-- `const_zero`, `/repo/mpc-core/src/protocols/rep3/yao/garbler.rs:268-278` -/
def getZero [Sample R Label] (g : Garbler R) : Label × Garbler R :=
  match g.constZero with
  | some z => (z, g)
  | none =>
    let (z, g) := g.constant false
    (z, { g with constZero := some z })

/-- `const_one`, `/repo/mpc-core/src/protocols/rep3/yao/garbler.rs:280-291` -/
def getOne [Sample R Label] (g : Garbler R) : Label × Garbler R :=
  match g.constOne with
  | some z => (z, g)
  | none =>
    let (z, g) := g.constant true
    (z, { g with constOne := some z })

/-- `impl FancyBinary, FancyBinaryConstant for Rep3Garbler`,
`/repo/mpc-core/src/protocols/rep3/yao/garbler.rs:245-292` -/
def backend [Sample R Label] (H : Hash) : Backend (Garbler R) Label where
  and a b g := .ok (g.and H a b)
  xor a b g := .ok (a ^^^ b, g)
  negate a g := .ok (g.delta ^^^ a, g)
  zero g := .ok g.getZero
  one g := .ok g.getOne

/-- `output`, `/repo/mpc-core/src/protocols/rep3/yao/garbler.rs:234-242` -/
def output (H : Hash) (x : Label) (g : Garbler R) : Garbler R :=
  let i := g.currentOutput
  (({ g with currentOutput := i + 1 }).addBlock (H (.output i false) (x ^^^ g.delta.cmul false))).addBlock
    (H (.output i true) (x ^^^ g.delta.cmul true))

/-- `output_evaluator`, `/repo/mpc-core/src/protocols/rep3/yao/garbler.rs:128-131` -/
def outputEvaluator (H : Hash) (xs : List Label) (g : Garbler R) : Garbler R :=
  xs.foldl (fun g x => g.output H x) g

end Garbler

/-- `output_garbler`, `/repo/mpc-core/src/protocols/rep3/yao/garbler.rs:141-149`: one block is compared
with the two labels of the wire. -/
def decodeBlock (delta block zero : Label) : Except Err Bool :=
  if block = zero then .ok false
  else if block = zero ^^^ delta then .ok true
  else .error (.err "Invalid block received")

/-- `output_garbler`, `/repo/mpc-core/src/protocols/rep3/yao/garbler.rs:134-151`, after the blocks were
received. -/
def decodeBlocks (delta : Label) (blocks zeros : List Label) : Except Err (List Bool) :=
  if blocks.length ≠ zeros.length then .error (.err "Invalid number of blocks received")
  else (blocks.zip zeros).mapM fun (bz : Label × Label) => decodeBlock delta bz.1 bz.2

/-! ### Evaluator -/

/-- `Rep3Evaluator`, `/repo/mpc-core/src/protocols/rep3/yao/evaluator.rs:18-26`.  `circuit` are the blocks
from `current_circuit_element` on. -/
structure Evaluator where
  currentOutput : Nat
  currentGate : Nat
  circuit : List Label
  constZero : Option Label
  constOne : Option Label

namespace Evaluator

/-- `get_block_from_circuit`, `/repo/mpc-core/src/protocols/rep3/yao/evaluator.rs:48-58` -/
def getBlock (e : Evaluator) : Except Err (Label × Evaluator) :=
  match e.circuit with
  | [] => .error (.err "Too few gates in circuits.")
  | b :: bs => .ok (b, { e with circuit := bs })

/-- `/repo/mpc-core/src/protocols/rep3/yao/evaluator.rs:254-262` -/
def and (H : Hash) (a b : Label) (e : Evaluator) : Except Err (Label × Evaluator) := do
  let (gate0, e) ← e.getBlock
  let (gate1, e) ← e.getBlock
  pure (evaluateAndGate H e.currentGate a b gate0 gate1, { e with currentGate := e.currentGate + 1 })

/-- `const_zero`, `/repo/mpc-core/src/protocols/rep3/yao/evaluator.rs:266-276` -/
def getZero (e : Evaluator) : Except Err (Label × Evaluator) :=
  match e.constZero with
  | some z => .ok (z, e)
  | none => do
    let (z, e) ← e.getBlock
    pure (z, { e with constZero := some z })

/-- `const_one`, `/repo/mpc-core/src/protocols/rep3/yao/evaluator.rs:278-288` -/
def getOne (e : Evaluator) : Except Err (Label × Evaluator) :=
  match e.constOne with
  | some z => .ok (z, e)
  | none => do
    let (z, e) ← e.getBlock
    pure (z, { e with constOne := some z })

/-- `impl FancyBinary, FancyBinaryConstant for Rep3Evaluator`,
`/repo/mpc-core/src/protocols/rep3/yao/evaluator.rs:244-289` -/
def backend (H : Hash) : Backend Evaluator Label where
  and a b e := e.and H a b
  xor a b e := .ok (a ^^^ b, e)
  negate a e := .ok (a, e)
  zero e := e.getZero
  one e := e.getOne

/-- `output`, `/repo/mpc-core/src/protocols/rep3/yao/evaluator.rs:217-241` -/
def output (H : Hash) (x : Label) (e : Evaluator) : Except Err (Bool × Evaluator) := do
  let i := e.currentOutput
  let e := { e with currentOutput := i + 1 }
  let (ct0, e) ← e.getBlock
  let (ct1, e) ← e.getBlock
  if H (.output i false) x = ct0 then pure (false, e)
  else if H (.output i true) x = ct1 then pure (true, e)
  else throw (.err "Output failed")

/-- `output_evaluator`, `/repo/mpc-core/src/protocols/rep3/yao/evaluator.rs:95-110` -/
def outputEvaluator (H : Hash) : List Label → Evaluator → Except Err (List Bool × Evaluator)
  | [], e => .ok ([], e)
  | x :: xs, e => do
    let (b, e) ← e.output H x
    let (bs, e) ← outputEvaluator H xs e
    pure (b :: bs, e)

end Evaluator

end Verif.Yao
