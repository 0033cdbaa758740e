import Verif.Yao.Circ

/-!
# Bristol-fashion circuits

Model of `/repo/mpc-core/src/protocols/rep3/yao/bristol_fashion/bristol.rs` (gate by gate evaluation) and
`/repo/mpc-core/src/protocols/rep3/yao/bristol_fashion/bristol/builder.rs` (verification).  Not modelled:
the text parser and the levelled evaluation, which nothing calls.
-/

namespace Verif.Yao.Bristol

open Circ

/-- `BristolFashionGate`, `/repo/mpc-core/src/protocols/rep3/yao/bristol_fashion/bristol.rs:17-41` -/
inductive Gate where
  | eqConst (input : Bool) (out : Nat)
  | eqWire (a out : Nat)
  | inv (a out : Nat)
  | and (a b out : Nat)
  | xor (a b out : Nat)
deriving DecidableEq, Repr

/-- The wire a gate sets. -/
def Gate.out : Gate → Nat
  | eqConst _ o => o
  | eqWire _ o => o
  | inv _ o => o
  | and _ _ o => o
  | xor _ _ o => o

/-- The wires a gate reads. -/
def Gate.ins : Gate → List Nat
  | eqConst _ _ => []
  | eqWire a _ => [a]
  | inv a _ => [a]
  | and a b _ => [a, b]
  | xor a b _ => [a, b]

/-- `BristolFashionCircuit`, `/repo/mpc-core/src/protocols/rep3/yao/bristol_fashion/bristol.rs:70-76`; the
number of AND gates is left out. -/
structure Circuit where
  inputWires : List (List Nat)
  outputWires : List (List Nat)
  gates : List Gate
deriving DecidableEq

/-- `num_wires`, `/repo/mpc-core/src/protocols/rep3/yao/bristol_fashion/bristol.rs:261-263` -/
def Circuit.numWires (c : Circuit) : Nat := c.inputWires.flatten.length + c.gates.length

variable {I : Type}

/-- `execution_wires[i]` -/
def getWire (ws : List I) (i : Nat) : Circ I I :=
  match ws[i]? with
  | some x => pure x
  | none => oob

/-- `execution_wires[i] = v` -/
def setWire (ws : List I) (i : Nat) (v : I) : Circ I (List I) :=
  if i < ws.length then pure (ws.set i v) else oob

/-- `evaluator.constant(input)`, `/repo/mpc-core/src/protocols/rep3/yao/garbler.rs:297-309` and
`/repo/mpc-core/src/protocols/rep3/yao/evaluator.rs:294-306` -/
def constant (input : Bool) : Circ I I := if input then constOne else constZero

/-- The loop over one input bundle,
`/repo/mpc-core/src/protocols/rep3/yao/bristol_fashion/bristol.rs:313-315` -/
def setInputs (ws : List I) (vals : List (I × Nat)) : Circ I (List I) :=
  vals.foldlM (fun ws (v : I × Nat) => setWire ws v.2 v.1) ws

/-- The loop over the input bundles,
`/repo/mpc-core/src/protocols/rep3/yao/bristol_fashion/bristol.rs:303-316` -/
def setBundles (ws : List I) (bundles : List (List I × List Nat)) : Circ I (List I) :=
  bundles.foldlM (fun ws (b : List I × List Nat) =>
    if b.1.length ≠ b.2.length then
      fail (.err "Input bundle has a wrong number of values")
    else setInputs ws (b.1.zip b.2)) ws

/-- One gate, `/repo/mpc-core/src/protocols/rep3/yao/bristol_fashion/bristol.rs:319-358` -/
def evalGate (ws : List I) : Gate → Circ I (List I)
  | .eqConst input o => do
    let v ← constant input
    setWire ws o v
  | .eqWire a o => do
    let v ← getWire ws a
    setWire ws o v
  | .inv a o => do
    let v ← getWire ws a
    let r ← gNot v
    setWire ws o r
  | .xor a b o => do
    let v ← getWire ws a
    let w ← getWire ws b
    let r ← gXor v w
    setWire ws o r
  | .and a b o => do
    let v ← getWire ws a
    let w ← getWire ws b
    let r ← gAnd v w
    setWire ws o r

/-- `evaluate_with_default`, `/repo/mpc-core/src/protocols/rep3/yao/bristol_fashion/bristol.rs:280-371` -/
def evaluate (c : Circuit) (inputs : List (List I)) (dflt : I) : Circ I (List (List I)) := do
  if inputs.length ≠ c.inputWires.length then
    fail (.err "Wrong number of input bundles")
  else do
    let ws ← setBundles (List.replicate c.numWires dflt) (inputs.zip c.inputWires)
    let ws ← c.gates.foldlM evalGate ws
    c.outputWires.mapM fun (out : List Nat) => out.mapM fun (i : Nat) => getWire ws i

/-! ### Verification -/

/-- `if !wires.insert(id) { return Err(..) }` -/
def insertNew (wires : List Nat) (id : Nat) : Except Err (List Nat) :=
  if id ∈ wires then .error (.err "already has a value") else .ok (id :: wires)

/-- `wires.get(id).ok_or_else(..)` -/
def needs (wires : List Nat) (id : Nat) : Except Err Unit :=
  if id ∈ wires then .ok () else .error (.err "does not have a value")

/-- One gate, `/repo/mpc-core/src/protocols/rep3/yao/bristol_fashion/bristol/builder.rs:29-110` -/
def verifyGate (wires : List Nat) (g : Gate) : Except Err (List Nat) := do
  g.ins.forM (needs wires)
  insertNew wires g.out

/-- `verify`, `/repo/mpc-core/src/protocols/rep3/yao/bristol_fashion/bristol/builder.rs:17-140`.  The hash
set is a list without duplicates. -/
def verify (numWires : Nat) (c : Circuit) : Except Err Circuit := do
  let wires ← c.inputWires.flatten.foldlM insertNew []
  let wires ← c.gates.foldlM verifyGate wires
  c.outputWires.flatten.forM (needs wires)
  if wires.length ≠ numWires then .error (.err "Circuit does not have the correct number of wires")
  else .ok c

end Verif.Yao.Bristol
