import Verif.Shamir.Arith
import Verif.Rep3.Share

/-!
# Model: translating replicated and additive shares to Shamir shares

Models `/repo/mpc-core/src/protocols/bridges/rep3_to_shamir.rs`.  The split of long vectors into
parallel chunks (lines 53-61) is a map in either branch and not modelled.  `none` stands for a panic
(the inverse of zero in the interpolation).
-/

namespace Verif.Bridge

open Shamir
open MPC (bail panicWith)

variable {F V R M : Type} [Field F] [DecidableEq F] [AddCommGroup V] [Module F V]

/-- The party of the Shamir network as a Rep3 party.
`/repo/mpc-core/src/protocols/rep3/id.rs:50-61` -/
def party3 : Fin 3 → PartyID
  | 0 => .ID0
  | 1 => .ID1
  | 2 => .ID2

/-- The value at the party's own point of the line that is `1` at zero and `0` at `root`.
`/repo/mpc-core/src/protocols/bridges/rep3_to_shamir.rs:20-26` -/
def lineAt (F : Type) [Field F] [DecidableEq F] (root : Nat) (at' : Nat) : Option F := do
  let f ← interpolateFromSecretAndZeros (1 : F) [root]
  pure (evaluatePoly f ((at' : Nat) : F))

/-- `/repo/mpc-core/src/protocols/bridges/rep3_to_shamir.rs:14-28` -/
def translationPoints (F : Type) [Field F] [DecidableEq F] (id : PartyID) : Option (F × F) := do
  let id := id.toNat
  let poly1X := if id = 0 then 3 else id
  let poly2X := if id = 2 then 1 else id + 2
  let x ← lineAt F poly1X (id + 1)
  let y ← lineAt F poly2X (id + 1)
  pure (x, y)

/-- `/repo/mpc-core/src/protocols/bridges/rep3_to_shamir.rs:31-40` (`V = F`), `103-112` (points) -/
def translateRepshare (F : Type) [Field F] [DecidableEq F] [Module F V] (input : Share V)
    (id : PartyID) : Option V := do
  let (x, y) ← translationPoints F id
  pure (x • input.a + y • input.b)

/-- `/repo/mpc-core/src/protocols/bridges/rep3_to_shamir.rs:43-62` -/
def translateRepshareVec (F : Type) [Field F] [DecidableEq F] [Module F V] (input : List (Share V))
    (id : PartyID) : Option (List V) := do
  let (x, y) ← translationPoints F id
  pure (input.map fun (s : Share V) => x • s.a + y • s.b)

/-- `self.open_lagrange_2t[0].inverse().expect(..)`.
`/repo/mpc-core/src/protocols/bridges/rep3_to_shamir.rs:71-73`, `85-87` -/
def ownLagrangeInverse : ShamirM 3 R F M F := do
  let s ← MPC.get
  match s.openLagrange2T with
  | [] => panicWith "index out of bounds"
  | l :: _ => unwrap (inverse? l)

/-- `/repo/mpc-core/src/protocols/bridges/rep3_to_shamir.rs:65-76` -/
def translateAddshare [Sample R F] [Codec M (List F)] (input : F) : ShamirM 3 R F M F := do
  let c ← ownLagrangeInverse
  degreeReduce (input * c)

/-- `/repo/mpc-core/src/protocols/bridges/rep3_to_shamir.rs:79-96` -/
def translateAddshareVec [Sample R F] [Codec M (List F)] (input : List F) :
    ShamirM 3 R F M (List F) := do
  let c ← ownLagrangeInverse
  degreeReduceMany (input.map (· * c))

end Verif.Bridge
