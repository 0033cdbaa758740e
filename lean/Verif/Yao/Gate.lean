import Verif.Net.MPC
import Verif.Rep3.Party

/-!
# Wire labels and half gates

Models `/repo/mpc-core/src/protocols/rep3/yao.rs:36-116`.

A wire label is a 128 bit block (`WireMod2` of the crate `fancy-garbling`, which is not part of
`/repo`): addition of labels is XOR, multiplication by a bit selects the label or zero, the colour is
the least significant bit.  The label hash of that crate is an arbitrary function.
-/

namespace Verif.Yao

/-- `fancy_garbling::WireMod2`, `scuttlebutt::Block`; `/repo/mpc-core/src/protocols/rep3/yao.rs:15,20` -/
abbrev Label := BitVec 128

namespace Label

/-- `WireLabel::color` -/
def color (a : Label) : Bool := a.getLsbD 0

/-- `a.cmul(c)` -/
def cmul (a : Label) (c : Bool) : Label := if c then a else 0

end Label

/-- The tweaks of the label hash: `tweak2(gate_num, 0)` and `output_tweak(i, k)`.
`/repo/mpc-core/src/protocols/rep3/yao.rs:49,85`,
`/repo/mpc-core/src/protocols/rep3/yao/garbler.rs:238` -/
inductive Tweak where
  | gate (n : Nat)
  | output (i : Nat) (k : Bool)

/-- `hash_wires`, `WireLabel::hash`: an arbitrary function. -/
abbrev Hash := Tweak → Label → Label

/-- `GCUtils::evaluate_and_gate`, `/repo/mpc-core/src/protocols/rep3/yao.rs:42-66` -/
def evaluateAndGate (H : Hash) (gateNum : Nat) (a b gate0 gate1 : Label) : Label :=
  let hashA := H (.gate gateNum) a
  let hashB := H (.gate gateNum) b
  let l := if a.color then hashA ^^^ gate0 else hashA
  let r := if b.color then hashB ^^^ gate1 else hashB
  l ^^^ (r ^^^ a.cmul b.color)

/-- `GCUtils::garble_and_gate`, `/repo/mpc-core/src/protocols/rep3/yao.rs:74-116`; bits (`u16`, `u8`
below two) are booleans. -/
def garbleAndGate (H : Hash) (gateNum : Nat) (a b d : Label) : Label × Label × Label :=
  let r := b.color
  let alpha := a.color
  let x1 := a ^^^ d.cmul alpha
  let beta := b.color
  let y1 := b ^^^ d.cmul beta
  let ad := a ^^^ d
  let bd := b ^^^ d
  let newB := if b.color then b else bd
  let newA := if a.color then a else ad
  let idx := if a.color then false else r
  let hashA := H (.gate gateNum) newA
  let hashB := H (.gate gateNum) newB
  let hashX := H (.gate gateNum) x1
  let hashY := H (.gate gateNum) y1
  let x := hashX ^^^ d.cmul (alpha && r)
  let y := hashY
  let gate0 := hashA ^^^ (if idx then x ^^^ d else x)
  let gate1 := hashB ^^^ (y ^^^ a)
  (gate0, gate1, x ^^^ y)

end Verif.Yao
