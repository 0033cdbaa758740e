import Verif.Yao.Bristol
import Mathlib.Logic.Function.Basic

/-!
# What a netlist computes

Wires carry bits; the gates are taken in order, each sets its output wire.
-/

namespace Verif.Yao.Bristol

/-- The bit a gate puts on its output wire. -/
def Gate.bit (f : Nat → Bool) : Gate → Bool
  | eqConst b _ => b
  | eqWire a _ => f a
  | inv a _ => !f a
  | and a b _ => f a && f b
  | xor a b _ => f a ^^ f b

/-- Wires after some of them were given bits. -/
def assign (f : Nat → Bool) (l : List (Nat × Bool)) : Nat → Bool :=
  l.foldl (fun f p => Function.update f p.1 p.2) f

/-- Wires after the gates. -/
def runGates (f : Nat → Bool) (gs : List Gate) : Nat → Bool :=
  gs.foldl (fun f g => Function.update f g.out (g.bit f)) f

/-- The bits of a netlist's output wires. -/
def Circuit.outputs (c : Circuit) (ins : List (List Bool)) : List Bool :=
  c.outputWires.flatten.map
    (runGates (assign (fun _ => false) (c.inputWires.flatten.zip ins.flatten)) c.gates)

/-- Every wire of the netlist has a number below the number of wires. -/
def Circuit.InRange (c : Circuit) : Prop :=
  (∀ i ∈ c.inputWires.flatten, i < c.numWires) ∧ (∀ i ∈ c.outputWires.flatten, i < c.numWires) ∧
    ∀ g ∈ c.gates, g.out < c.numWires ∧ ∀ i ∈ g.ins, i < c.numWires

instance (c : Circuit) : Decidable c.InRange := by unfold Circuit.InRange; infer_instance

end Verif.Yao.Bristol
