import Verif.Rep3.Arith
import Mathlib.Algebra.Module.Defs

/-!
# Model: replicated shares of curve points

Models `/repo/mpc-core/src/protocols/rep3/pointshare.rs` (except the zero test, which needs
coordinates: see `Verif/Curve/Convert.lean`) and `/repo/mpc-core/src/protocols/rep3/pointshare/ops.rs`.
Points live in an arbitrary module `V` over the scalar field `F`: the group law of the curve library is
assumed, and affine and projective representations are not distinguished.  Addition, subtraction and
negation of point shares (`ops.rs:5-79`, `102-111`) are the component-wise ones of `Share`.
-/

namespace Verif.Rep3.Point

open PartyID
open MPC (bail panicWith)

variable {R M F V : Type} [Field F] [AddCommGroup V] [Module F V]

/-- `/repo/mpc-core/src/protocols/rep3/pointshare.rs:27-29`, `37-39` -/
def add (a b : Share V) : Share V := a + b

/-- `/repo/mpc-core/src/protocols/rep3/pointshare.rs:32-34`, `42-44` -/
def sub (a b : Share V) : Share V := a - b

/-- `/repo/mpc-core/src/protocols/rep3/pointshare.rs:47-53` -/
def addAssignPublic (a : Share V) (b : V) : PartyID → Share V
  | ID0 => { a with a := a.a + b }
  | ID1 => { a with b := a.b + b }
  | ID2 => a

/-- `/repo/mpc-core/src/protocols/rep3/pointshare.rs:56-62` -/
def subAssignPublic (a : Share V) (b : V) : PartyID → Share V
  | ID0 => { a with a := a.a - b }
  | ID1 => { a with b := a.b - b }
  | ID2 => a

/-- `/repo/mpc-core/src/protocols/rep3/pointshare.rs:65-73` -/
def scalarMulPublicPoint (a : V) (b : Share F) : Share V := ⟨b.a • a, b.b • a⟩

/-- `/repo/mpc-core/src/protocols/rep3/pointshare.rs:76-81`,
`/repo/mpc-core/src/protocols/rep3/pointshare/ops.rs:81-90` -/
def scalarMulPublicScalar (a : Share V) (b : F) : Share V := ⟨b • a.a, b • a.b⟩

/-- Local part of the multiplication. `/repo/mpc-core/src/protocols/rep3/pointshare/ops.rs:92-99` -/
def localMul (s : Share F) (rhs : Share V) : V := s.a • rhs.a + s.a • rhs.b + s.b • rhs.a

/-- `state.rngs.rand.masking_ec_element()`. `/repo/mpc-core/src/protocols/rep3/rngs.rs:185-188` -/
def maskPoint [Sample R V] : Rep3M R M V := withRand (Rep3Rand.masking (α := V))

/-- `/repo/mpc-core/src/protocols/rep3/pointshare.rs:119-125` -/
def scalarMulLocal [Sample R V] (a : Share V) (b : Share F) : Rep3M R M V := do
  let m ← maskPoint
  pure (localMul b a + m)

/-- `/repo/mpc-core/src/protocols/rep3/pointshare.rs:84-96` -/
def scalarMul [Sample R V] [Codec M (List V)] (a : Share V) (b : Share F) : Rep3M R M (Share V) := do
  let m ← maskPoint
  let localA := localMul b a + m
  let localB ← reshare localA
  pure ⟨localA, localB⟩

/-- `/repo/mpc-core/src/protocols/rep3/pointshare.rs:99-116`; both loops stop at the shorter vector. -/
def scalarMulMany [Sample R V] [Codec M (List V)] (a : List (Share V)) (b : List (Share F)) :
    Rep3M R M (List (Share V)) := do
  let localA ← (a.zip b).mapM fun (ab : Share V × Share F) => do
    let m ← maskPoint
    pure (localMul ab.2 ab.1 + m)
  let localB ← reshareMany localA
  pure (List.zipWith Share.mk localA localB)

/-- `gen` is the generator of the curve. `/repo/mpc-core/src/protocols/rep3/pointshare.rs:129-143` -/
def promoteToTrivialShare [DecidableEq V] (gen : V) (id : PartyID) (a : V) : Share V :=
  if a = 0 then
    match id with
    | ID0 => ⟨gen, gen⟩
    | ID1 => ⟨-gen - gen, gen⟩
    | ID2 => ⟨gen, -gen - gen⟩
  else
    match id with
    | ID0 => ⟨a, gen⟩
    | ID1 => ⟨-gen, a⟩
    | ID2 => ⟨gen, -gen⟩

/-- `/repo/mpc-core/src/protocols/rep3/pointshare.rs:146-149` -/
def openPoint [Codec M (List V)] (a : Share V) : Rep3M R M V := do
  let c ← reshare a.b
  pure (a.a + a.b + c)

/-- `/repo/mpc-core/src/protocols/rep3/pointshare.rs:152-155` -/
def openHalfPoint [Codec M (List V)] (a : V) : Rep3M R M V := do
  let (b, c) ← broadcast a
  pure (a + b + c)

/-- `/repo/mpc-core/src/protocols/rep3/pointshare.rs:158-165`; the whole vector is one message element. -/
def openPointMany [Codec M (List (List V))] (a : List (Share V)) : Rep3M R M (List V) := do
  let cs ← reshare (a.map Share.b)
  pure (List.zipWith (fun (x : Share V) c => x.a + x.b + c) a cs)

/-- `/repo/mpc-core/src/protocols/rep3/pointshare.rs:168-187`; the `debug_assert`s are not modelled. -/
def openPointAndFieldMany [Codec M (List (List V × List F))] (a : List (Share V)) (b : List (Share F)) :
    Rep3M R M (List V × List F) := do
  let (c1, c2) ← reshare (a.map Share.b, b.map Share.b)
  pure (List.zipWith (fun (x : Share V) c => x.a + x.b + c) a c1,
    List.zipWith (fun (y : Share F) c => y.a + y.b + c) b c2)

/-- `/repo/mpc-core/src/protocols/rep3/pointshare.rs:190-197` -/
def openPointAndField [Codec M (List (V × F))] (a : Share V) (b : Share F) : Rep3M R M (V × F) := do
  let c ← reshare (a.b, b.b)
  pure (a.a + a.b + c.1, b.a + b.b + c.2)

/-- `∑ sᵢ • Pᵢ`, what the library routine computes (assumed). -/
def msm (points : List V) (scalars : List F) : V :=
  (List.zipWith (fun p (s : F) => s • p) points scalars).sum

/-- `/repo/mpc-core/src/protocols/rep3/pointshare.rs:200-222` -/
def msmPublicPoints (points : List V) (scalars : List (Share F)) : Share V :=
  ⟨msm points (scalars.map Share.a), msm points (scalars.map Share.b)⟩

end Verif.Rep3.Point
