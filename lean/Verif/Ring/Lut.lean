import Verif.Net.Join
import Verif.Ring.Ohv
import Verif.Rep3.Conversion
import Verif.Rep3.Point
import Mathlib.Algebra.Field.ZMod

/-!
# Oblivious lookup tables

Models `/repo/mpc-core/src/protocols/rep3_ring/gadgets/{lut_field,lut_curve}.rs`,
`/repo/mpc-core/src/protocols/rep3_ring/{lut_field,lut_curve}.rs` and
`/repo/mpc-core/src/lut.rs`.  Tracing output is not represented.

`n.next_power_of_two().ilog2()` is `Nat.clog 2 n`.  A conversion `c.0.try_into()` to `usize` fails from `2^64` on.

Reads from public tables run one-hot vectors on two networks with `mpc_net::join`; they are described with
`forkJoinM`, whose stages are: what comes before `join`, the closures on the two networks, and what comes
after.
-/

namespace Verif.Rep3.Lut

open PartyID
open MPC (bail panicWith)

variable {R M : Type} [∀ w, Sample R (BitVec w)] [∀ w, UintCodec M w]

/-- `assert!` -/
def assertThat (b : Bool) : Rep3M R M Unit := if b then pure () else panicWith "assertion failed"

/-- `c.0.try_into().expect(..) & ((1 << k) - 1)`,
`/repo/mpc-core/src/protocols/rep3_ring/gadgets/lut_field.rs:34-37`, `90-93`, `166-169` -/
def toUsize {t : Nat} (k : Nat) (c : BitVec t) : Rep3M R M Nat :=
  if c.toNat < 2 ^ 64 then pure (c.toNat &&& (1 <<< k - 1))
  else panicWith "This transformation should work, otherwise we have another issue"

/-! ### Reading public tables of field elements -/

section Public

variable {w t p : Nat}

/-- The loop of `read_public_lut`, `/repo/mpc-core/src/protocols/rep3_ring/gadgets/lut_field.rs:40-53`; `j` counts
the entries of the vector already used. -/
def readPublicLoop (lut : List (ZMod p)) (c : Nat) : List (Share (BitVec 1)) → Nat → Share (BitVec w) →
    Option (Share (BitVec w))
  | [], _, acc => some acc
  | e :: rest, j, acc =>
    let index := j ^^^ c
    if lut.length ≤ index then readPublicLoop lut c rest (j + 1) acc
    else
      match lut[index]? with
      | none => none
      | some v =>
        let v := Uint.ofField w v
        let a := if e.a = 1#1 then acc.a ^^^ v else acc.a
        let b := if e.b = 1#1 then acc.b ^^^ v else acc.b
        readPublicLoop lut c rest (j + 1) ⟨a, b⟩

/-- `read_public_lut`, `/repo/mpc-core/src/protocols/rep3_ring/gadgets/lut_field.rs:16-55` -/
def readPublicLut (w : Nat) (lut : List (ZMod p)) (index : Share (BitVec t)) :
    Rep3M R M (Share (BitVec w)) := do
  let n := lut.length
  let k := Nat.clog 2 n
  assertThat (k ≤ t)
  let (r, e) ← Ring.randOhv t k
  let c ← Ring.openBits (r.bxor index)
  let c ← toUsize k c
  Ring.orPanic (readPublicLoop lut c e 0 ⟨0#w, 0#w⟩)

/-- `if k & 1 == 1 { k += 1 }`, `/repo/mpc-core/src/protocols/rep3_ring/gadgets/lut_field.rs:73-76`, `149-152` -/
def makeEven (k : Nat) : Nat := if k % 2 = 1 then k + 1 else k

/-- What is added for one entry of the table in the low depth loops,
`/repo/mpc-core/src/protocols/rep3_ring/gadgets/lut_field.rs:112-127`, `188-203` -/
def lowDepthStep (v : BitVec w) (f0 f1 : Share (BitVec 1)) (acc : BitVec w) : BitVec w :=
  let ga := if f0.a = 1#1 then 0#w ^^^ v else 0#w
  let gb := if f0.b = 1#1 then 0#w ^^^ v else 0#w
  let acc := if f1.a = 1#1 then acc ^^^ ga ^^^ gb else acc
  if f1.b = 1#1 then acc ^^^ ga else acc

/-- The double loop of the low depth reads over all pairs of entries of two vectors,
`/repo/mpc-core/src/protocols/rep3_ring/gadgets/lut_field.rs:101-129`, `177-205`; the index expression
`lut[index]` panics when it is out of bounds. -/
def lowDepthLoop (lut : List (ZMod p)) (n c : Nat) : List (Share (BitVec 1) × Share (BitVec 1)) → Nat →
    BitVec w → Option (BitVec w)
  | [], _, acc => some acc
  | f :: rest, j, acc =>
    let index := j ^^^ c
    if n ≤ index then lowDepthLoop lut n c rest (j + 1) acc
    else
      match lut[index]? with
      | none => none
      | some v => lowDepthLoop lut n c rest (j + 1) (lowDepthStep (Uint.ofField w v) f.1 f.2 acc)

/-- All pairs, in the order of two nested loops. -/
def allPairs {α β : Type} (e : List α) (e' : List β) : List (α × β) := e.flatMap fun x => e'.map fun y => (x, y)

/-- Combining the two random values and opening, as in
`/repo/mpc-core/src/protocols/rep3_ring/gadgets/lut_field.rs:85-93`, `161-169` -/
def lowDepthOpen (k : Nat) (index r r' : Share (BitVec t)) : Rep3M R M Nat := do
  let r := r.shl (k / 2)
  let r : Share (BitVec t) := ⟨r.a + r'.a, r.b + r'.b⟩
  let c ← Ring.openBits (r.bxor index)
  toUsize k c

/-- A masked sum for one table, `/repo/mpc-core/src/protocols/rep3_ring/gadgets/lut_field.rs:95-129`, `173-206` -/
def lowDepthRead (w : Nat) (lut : List (ZMod p)) (n c : Nat) (e e' : List (Share (BitVec 1))) :
    Rep3M R M (BitVec w) := do
  let m ← Bin.maskBits (modBits p)
  Ring.orPanic (lowDepthLoop lut n c (allPairs e e') 0 m)

/-- `read_public_lut_low_depth` after `join`, `/repo/mpc-core/src/protocols/rep3_ring/gadgets/lut_field.rs:82-131` -/
def lowDepthPost (w : Nat) (lut : List (ZMod p)) (index : Share (BitVec t))
    (x x' : Share (BitVec t) × List (Share (BitVec 1))) : Rep3M R M (BitVec w) := do
  let c ← lowDepthOpen (makeEven (Nat.clog 2 lut.length)) index x.1 x'.1
  lowDepthRead w lut lut.length c x.2 x'.2

/-- The type a table index is computed with, for a table with `2^k` entries at most,
`/repo/mpc-core/src/protocols/rep3_ring/lut_field.rs:86-97`; `0` stands for the panic. -/
def lutWidth (k : Nat) : Nat :=
  if k = 1 then 1 else if k ≤ 8 then 8 else if k ≤ 16 then 16 else if k ≤ 32 then 32 else 0

variable [Sample R (ZMod p)] [Codec M (List (ZMod p))]

/-- The beginning of the functions of the table providers: conversion of the index, choice of the type,
cast. `/repo/mpc-core/src/protocols/rep3_ring/lut_field.rs:82-97` and `115-117`, `256-281` and `249-251`,
`327-345` and `145-147`, `360-379` and `218-220`,
`/repo/mpc-core/src/protocols/rep3_ring/lut_curve.rs:83-98` and `111-113` -/
def castIndex [Yao.YaoRng R] [Yao.YaoNet M] (w n : Nat) (index : Share (ZMod p)) : Rep3M R M (Share (BitVec (lutWidth (Nat.clog 2 n)))) := do
  let bits ← a2bSelector (w := w) index
  if 32 < Nat.clog 2 n then panicWith "Table is too large"
  else pure (bits.castTo (lutWidth (Nat.clog 2 n)))

/-- `get_from_lut` for a public table, `/repo/mpc-core/src/protocols/rep3_ring/lut_field.rs:316-347`, `133-159`,
with `read_public_lut_low_depth`, `/repo/mpc-core/src/protocols/rep3_ring/gadgets/lut_field.rs:59-132` -/
def getFromPublicLut [Yao.YaoRng R] [Yao.YaoNet M] (w : Nat) (index : PartyID → Share (ZMod p)) (lut : List (ZMod p))
    (st₀ st₁ : PartyID → Rep3State R) :=
  let k := Nat.clog 2 lut.length
  forkJoinM (M := M) (ι := PartyID)
    (fun i => do
      let share ← castIndex w lut.length (index i)
      assertThat (makeEven k ≤ lutWidth k)
      pure share)
    (fun _ _ => Ring.randOhv (lutWidth k) (makeEven k / 2))
    (fun _ _ => Ring.randOhv (lutWidth k) (makeEven k / 2))
    (fun _ share x x' => do
      let binA ← lowDepthPost w lut share x x'
      let binB ← reshare binA
      b2aSelector (p := p) ⟨binA, binB⟩)
    st₀ st₁

omit [Sample R (ZMod p)] [Codec M (List (ZMod p))] in
/-- `get_from_public_lut_no_b2a_conversion`, `/repo/mpc-core/src/protocols/rep3_ring/lut_field.rs:170-204`, with
`read_public_lut_low_depth`, `/repo/mpc-core/src/protocols/rep3_ring/gadgets/lut_field.rs:59-132`; the type `T` is
chosen by the caller. -/
def getFromPublicLutNoB2A (t : Nat) (index : PartyID → Share (BitVec w)) (lut : List (ZMod p))
    (st₀ st₁ : PartyID → Rep3State R) :=
  let k := Nat.clog 2 lut.length
  forkJoinM (M := M) (ι := PartyID)
    (fun i => do
      assertThat (makeEven k ≤ t)
      pure ((index i).castTo t))
    (fun _ _ => Ring.randOhv t (makeEven k / 2))
    (fun _ _ => Ring.randOhv t (makeEven k / 2))
    (fun _ share x x' => do
      let binA ← lowDepthPost w lut share x x'
      let binB ← reshare binA
      pure (Share.mk binA binB))
    st₀ st₁

/-- `luts.iter().map(|l| l.len()).max().unwrap()` -/
def maxLen {α : Type} (luts : List (List α)) : Nat := (luts.map List.length).max?.getD 0

omit [Sample R (ZMod p)] [Codec M (List (ZMod p))] in
/-- `read_multiple_public_lut_low_depth` after `join`,
`/repo/mpc-core/src/protocols/rep3_ring/gadgets/lut_field.rs:158-211` -/
def lowDepthPostMany (w : Nat) (luts : List (List (ZMod p))) (index : Share (BitVec t))
    (x x' : Share (BitVec t) × List (Share (BitVec 1))) : Rep3M R M (List (BitVec w)) := do
  let c ← lowDepthOpen (makeEven (Nat.clog 2 (maxLen luts))) index x.1 x'.1
  luts.mapM fun lut => lowDepthRead w lut (maxLen luts) c x.2 x'.2

/-- `get_from_public_luts`, `/repo/mpc-core/src/protocols/rep3_ring/lut_field.rs:72-131`, with
`read_multiple_public_lut_low_depth`, `/repo/mpc-core/src/protocols/rep3_ring/gadgets/lut_field.rs:136-212` -/
def getFromPublicLuts [Yao.YaoRng R] [Yao.YaoNet M] (w : Nat) (index : PartyID → Share (ZMod p)) (luts : List (List (ZMod p)))
    (st₀ st₁ : PartyID → Rep3State R) :=
  let k := Nat.clog 2 (maxLen luts)
  forkJoinM (M := M) (ι := PartyID)
    (fun i => do
      if luts = [] then panicWith "called `Option::unwrap()` on a `None` value"
      else
        let share ← castIndex w (maxLen luts) (index i)
        assertThat (makeEven k ≤ lutWidth k)
        pure share)
    (fun _ _ => Ring.randOhv (lutWidth k) (makeEven k / 2))
    (fun _ _ => Ring.randOhv (lutWidth k) (makeEven k / 2))
    (fun _ share x x' => do
      let binsA ← lowDepthPostMany w luts share x x'
      let binsB ← reshareMany binsA
      (binsA.zip binsB).mapM fun b => b2aSelector (p := p) ⟨b.1, b.2⟩)
    st₀ st₁

end Public

/-! ### Shared tables

The functions for field elements and for points have the same text, up to the type of the entries: here the
entries live in a module over the scalar field, which for field elements is the field itself. -/

section Shared

variable {w t p : Nat} [Fact p.Prime] {V : Type} [AddCommGroup V] [Module (ZMod p) V]
  [Sample R (ZMod p)] [Codec M (List (ZMod p))]

/-- `ohv` and `bit_inject_from_bits_to_field_many` for a table of length `n`, after the assertion on the
type: `/repo/mpc-core/src/protocols/rep3_ring/gadgets/lut_field.rs:225-229`, `252-257`,
`/repo/mpc-core/src/protocols/rep3_ring/gadgets/lut_curve.rs:25-33`, `54-62`, `89-97`, `121-128` -/
def ohvField (n : Nat) (index : Share (BitVec t)) : Rep3M R M (List (Share (ZMod p))) := do
  let k := Nat.clog 2 n
  assertThat (k ≤ t)
  let e ← Ring.ohv k index
  Ring.bitInjectFromBitsToFieldMany e

variable [Sample R V] [Codec M (List V)]

/-- `read_shared_lut`, `/repo/mpc-core/src/protocols/rep3_ring/gadgets/lut_field.rs:216-238`,
`/repo/mpc-core/src/protocols/rep3_ring/gadgets/lut_curve.rs:80-107` -/
def readSharedLut (lut : List (Share V)) (index : Share (BitVec t)) : Rep3M R M V := do
  let injected ← ohvField (p := p) lut.length index
  let m ← Point.maskPoint
  pure ((lut.zip injected).foldl (fun acc le => acc + Point.localMul (F := ZMod p) le.2 le.1) m)

/-- `write_lut_from_ohv`, `/repo/mpc-core/src/protocols/rep3_ring/gadgets/lut_field.rs:263-283`,
`/repo/mpc-core/src/protocols/rep3_ring/gadgets/lut_curve.rs:134-157`; the new table is the result. -/
def writeLutFromOhv (value : Share V) (lut : List (Share V)) (ohv : List (Share (ZMod p))) :
    Rep3M R M (List (Share V)) := do
  assertThat (lut.length ≤ ohv.length)
  let localA ← (lut.zip ohv).mapM fun le => do
    let m ← Point.maskPoint
    pure (Point.localMul (F := ZMod p) le.2 (value - le.1) + le.1.a + m)
  let localB ← reshareMany localA
  let new := localA.zip localB
  pure ((List.zipWith (fun (_ : Share V) ab => (⟨ab.1, ab.2⟩ : Share V)) lut new) ++ lut.drop new.length)

/-- `write_lut`, `/repo/mpc-core/src/protocols/rep3_ring/gadgets/lut_field.rs:242-260`,
`/repo/mpc-core/src/protocols/rep3_ring/gadgets/lut_curve.rs:111-131` -/
def writeLut (value : Share V) (lut : List (Share V)) (index : Share (BitVec t)) :
    Rep3M R M (List (Share V)) := do
  let injected ← ohvField (p := p) lut.length index
  writeLutFromOhv value lut injected

/-- `get_from_lut` for a shared table, `/repo/mpc-core/src/protocols/rep3_ring/lut_field.rs:316-347`, `159-163`,
`/repo/mpc-core/src/protocols/rep3_ring/lut_curve.rs:240-271`, `135-139` -/
def getFromSharedLut [Yao.YaoRng R] [Yao.YaoNet M] (w : Nat) (index : Share (ZMod p)) (lut : List (Share V)) : Rep3M R M (Share V) := do
  let share ← castIndex w lut.length index
  let fA ← readSharedLut (p := p) lut share
  let fB ← reshare fA
  pure ⟨fA, fB⟩

/-- `PublicPrivateLut`, `/repo/mpc-core/src/protocols/rep3_ring/lut_field.rs:23-28`,
`/repo/mpc-core/src/protocols/rep3_ring/lut_curve.rs:23-28` -/
inductive Table (V : Type)
  | pub (values : List V)
  | shared (values : List (Share V))

/-- `PublicPrivateLut::len`, `/repo/mpc-core/src/protocols/rep3_ring/lut_field.rs:38-43` -/
def Table.len {V : Type} : Table V → Nat
  | .pub l => l.length
  | .shared l => l.length

/-- `write_to_lut`, `/repo/mpc-core/src/protocols/rep3_ring/lut_field.rs:349-383`, `206-238`,
`/repo/mpc-core/src/protocols/rep3_ring/lut_curve.rs:273-307`, `144-175`; the new table is the result. `promote` is
`promote_to_trivial_share` of the type of the entries. -/
def writeToLut [Yao.YaoRng R] [Yao.YaoNet M] (w : Nat) (promote : PartyID → V → Share V) (index : Share (ZMod p)) (value : Share V) (lut : Table V) :
    Rep3M R M (Table V) := do
  let share ← castIndex w lut.len index
  match lut with
  | .pub l => do
    let id ← stateId
    let l ← writeLut (p := p) value (l.map (promote id)) share
    pure (.shared l)
  | .shared l => do
    let l ← writeLut (p := p) value l share
    pure (.shared l)

omit [Sample R V] [Codec M (List V)] in
/-- `ohv_from_index`, `/repo/mpc-core/src/protocols/rep3_ring/lut_field.rs:240-281`,
`/repo/mpc-core/src/protocols/rep3_ring/lut_curve.rs:178-189` -/
def ohvFromIndex [Yao.YaoRng R] [Yao.YaoNet M] (w : Nat) (index : Share (ZMod p)) (len : Nat) : Rep3M R M (List (Share (ZMod p))) := do
  let bits ← castIndex w len index
  let e ← Ring.ohv (Nat.clog 2 len) bits
  Ring.bitInjectFromBitsToFieldMany e

/-! ### Public tables of points -/

omit [∀ w, Sample R (BitVec w)] [∀ w, UintCodec M w] [Sample R (ZMod p)] [Codec M (List (ZMod p))]
  [Sample R V] [Codec M (List V)] in
/-- The loop of `read_public_lut` and `read_public_luts` for one table,
`/repo/mpc-core/src/protocols/rep3_ring/gadgets/lut_curve.rs:34-38`, `66-70` -/
def pointSum (lut : List V) (injected : List (Share (ZMod p))) : Share V :=
  (lut.zip injected).foldl (fun acc le => acc + Point.scalarMulPublicPoint (F := ZMod p) le.1 le.2) ⟨0, 0⟩

omit [Sample R V] [Codec M (List V)] in
/-- `get_from_lut` for a public table of points, `/repo/mpc-core/src/protocols/rep3_ring/lut_curve.rs:240-271`, `132-134`,
with `read_public_lut`, `/repo/mpc-core/src/protocols/rep3_ring/gadgets/lut_curve.rs:16-41` -/
def getPointFromPublicLut [Yao.YaoRng R] [Yao.YaoNet M] (w : Nat) (index : Share (ZMod p)) (lut : List V) : Rep3M R M (Share V) := do
  let share ← castIndex w lut.length index
  let injected ← ohvField (p := p) lut.length share
  pure (pointSum lut injected)

omit [Sample R V] [Codec M (List V)] in
/-- `get_from_public_luts` for points, `/repo/mpc-core/src/protocols/rep3_ring/lut_curve.rs:75-117`, with
`read_public_luts`, `/repo/mpc-core/src/protocols/rep3_ring/gadgets/lut_curve.rs:45-76`.  The length of the one-hot
vector comes from the *number* of tables. -/
def getPointsFromPublicLuts [Yao.YaoRng R] [Yao.YaoNet M] (w : Nat) (index : Share (ZMod p)) (luts : List (List V)) :
    Rep3M R M (List (Share V)) := do
  if luts = [] then panicWith "called `Option::unwrap()` on a `None` value"
  else
    let share ← castIndex w (maxLen luts) index
    let injected ← ohvField (p := p) luts.length share
    pure (luts.map fun lut => pointSum lut injected)

end Shared

/-! ### The provider for plain values -/

/-- `field_to_usize`, `/repo/mpc-core/src/lut.rs:14-21` -/
def fieldToUsize {p : Nat} (index : ZMod p) : Option Nat := if index.val < 2 ^ 64 then some index.val else none

/-- `get_from_lut` of `PlainLookupTableProvider`, `/repo/mpc-core/src/lut.rs:106-118` -/
def plainGet {p : Nat} (index : ZMod p) (lut : List (ZMod p)) : Except Err (ZMod p) :=
  match fieldToUsize index with
  | none => .error (.err "Index can not be translated to usize")
  | some i =>
    match lut[i]? with
    | none => .error (.panic "index out of bounds")
    | some v => .ok v

/-- `write_to_lut` of `PlainLookupTableProvider`, `/repo/mpc-core/src/lut.rs:120-135` -/
def plainWrite {p : Nat} (index value : ZMod p) (lut : List (ZMod p)) : Except Err (List (ZMod p)) :=
  match fieldToUsize index with
  | none => .error (.err "Index can not be translated to usize")
  | some i => if i < lut.length then .ok (lut.set i value) else .error (.panic "index out of bounds")

end Verif.Rep3.Lut
