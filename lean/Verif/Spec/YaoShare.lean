import Verif.Spec.Garble
import Verif.Rep3.State

/-!
# Yao sharings

Party 0 evaluates, parties 1 and 2 garble.
-/

namespace Verif.Yao

open PartyID

/-- The two garblers have the offset `d`, whose colour bit is one. -/
structure IsDelta (delta : PartyID → Option Label) (d : Label) : Prop where
  party1 : delta ID1 = some d
  party2 : delta ID2 = some d
  color : d.color = true

/-- The parties hold a bundle of wires that carries `bits`: the garblers have the same zero labels, the
evaluator has for each wire the label of its bit. -/
structure IsYShare (d : Label) (y : PartyID → List Label) (bits : List Bool) : Prop where
  garblers : y ID2 = y ID1
  length : (y ID1).length = bits.length
  evaluator : y ID0 = encodes d (y ID1) bits

/-- The output hash tells the two labels of each output wire apart; `zeros` are the zero labels of the
outputs, in order. -/
def Decodable (H : Hash) (d : Label) (zeros : List Label) : Prop :=
  ∀ i (hi : i < zeros.length), H (.output i false) (zeros[i] ^^^ d) ≠ H (.output i false) zeros[i]

/-- The output hash never maps two labels of different colours to the same value, so it tells the two labels of
every wire apart. -/
def HashSeparates (H : Hash) : Prop :=
  ∀ i (x y : Label), x.color ≠ y.color → H (.output i false) x ≠ H (.output i false) y

/-- `Decodable` for an offset with labels. -/
def Separated (H : Hash) (x : Option Label × List Label) : Prop :=
  ∃ d, x.1 = some d ∧ Decodable H d x.2

end Verif.Yao
