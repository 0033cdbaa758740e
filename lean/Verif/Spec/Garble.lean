import Verif.Yao.Circ

/-!
# What it means for a garbled circuit to compute a function

Bits are lists, least significant first.  A circuit takes bundles of wires and returns a bundle.
-/

namespace Verif.Yao

/-- The number written by bits, least significant first. -/
def val : List Bool → Nat
  | [] => 0
  | b :: bs => b.toNat + 2 * val bs

/-- The label of a wire that carries bit `x`: the zero label, or the zero label offset by `d`. -/
def encode (d zero : Label) (x : Bool) : Label := if x then zero ^^^ d else zero

/-- The labels of a bundle of wires. -/
def encodes (d : Label) (zeros : List Label) (xs : List Bool) : List Label :=
  List.zipWith (encode d) zeros xs

/-- A garbler that has not garbled anything yet. -/
def freshGarbler {R : Type} (d : Label) (rng : R) : Garbler R where
  delta := d
  currentOutput := 0
  currentGate := 0
  rng := rng
  blocks := []
  constZero := none
  constOne := none

/-- An evaluator that has received a garbled circuit. -/
def freshEvaluator (blocks : List Label) : Evaluator where
  currentOutput := 0
  currentGate := 0
  circuit := blocks
  constZero := none
  constOne := none

/-- Circuit code, generic in the type of wires, from bundles of wires to a bundle.  The argument of type
`I` is the type's default value, `T::default()`: the bit zero, the all-zero label. -/
abbrev Circuit := (I : Type) → I → List (List I) → Circ I (List I)

/-- On plain bits the circuit returns `out`.  Garbled, with any hash function, any random stream, any
offset whose colour bit is one and any zero labels of the inputs, the garbler returns zero labels of the
outputs; and the evaluator, who has the garbler's blocks and for each input wire the label of its bit,
consumes all the blocks and gets for each output wire the label of its bit. -/
def Computes (c : Circuit) (ins : List (List Bool)) (out : List Bool) : Prop :=
  (c Bool false ins).plain = .ok out ∧
  ∀ (R : Type) [Sample R Label] (H : Hash) (d : Label) (rng : R) (zeros : List (List Label)),
    d.color = true → zeros.map List.length = ins.map List.length →
    ∃ zs g' e', (c Label 0 zeros).run (Garbler.backend H) (freshGarbler d rng) = .ok (zs, g') ∧
      zs.length = out.length ∧
      (c Label 0 (List.zipWith (encodes d) zeros ins)).run (Evaluator.backend H) (freshEvaluator g'.blocks)
        = .ok (encodes d zs out, e') ∧ e'.circuit = []

/-- The circuit computes, in the sense of `Computes`, the `n` bits of the number `v`. -/
def ComputesNat (c : Circuit) (ins : List (List Bool)) (n v : Nat) : Prop :=
  ∃ out, out.length = n ∧ val out = v ∧ Computes c ins out

/-- A circuit of one bundle. -/
def one (f : (I : Type) → List I → Circ I (List I)) : Circuit := fun I _ ins =>
  match ins with
  | [x] => f I x
  | _ => .fail (.panic "arity")

/-- A circuit of two bundles. -/
def two (f : (I : Type) → List I → List I → Circ I (List I)) : Circuit := fun I _ ins =>
  match ins with
  | [x, y] => f I x y
  | _ => .fail (.panic "arity")

/-- A circuit of three bundles. -/
def threeIn (f : (I : Type) → List I → List I → List I → Circ I (List I)) : Circuit := fun I _ ins =>
  match ins with
  | [x, y, z] => f I x y z
  | _ => .fail (.panic "arity")

/-- A circuit of any number of bundles that returns bundles; they are returned one after the other. -/
def many (f : (I : Type) → List (List I) → Circ I (List (List I))) : Circuit := fun I _ ins =>
  List.flatten <$> f I ins

/-- A circuit of a wire and two bundles. -/
def sel (f : (I : Type) → I → List I → List I → Circ I (List I)) : Circuit := fun I _ ins =>
  match ins with
  | [[b], x, y] => f I b x y
  | _ => .fail (.panic "arity")

end Verif.Yao
