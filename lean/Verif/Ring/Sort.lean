import Verif.Ring.Ring
import Verif.Net.Two

/-!
# Oblivious radix sort

Models `/repo/mpc-core/src/protocols/rep3_ring/gadgets/sort.rs` and `Rep3Rand::random_perm` of
`/repo/mpc-core/src/protocols/rep3/rngs.rs:240-246`.  `PermRing` is `u32`, here `BitVec 32`.  Indexing out of bounds is
a panic, here `none`.  The `debug_assert_eq` on lengths are not modelled (release build).

Values are drawn in loops; here a loop of `n` draws is `sampleN`.  Drawing from the two generators in turn or from
one after the other gives the same values, because the two generators are separate.
-/

namespace Verif

open PartyID
open MPC (bail panicWith)

section Shuffle

variable {R α : Type}

/-- `<[T]>::swap` within bounds. -/
def swapAt (l : List α) (i j : Nat) : List α :=
  match l[i]?, l[j]? with
  | some x, some y => (l.set i y).set j x
  | _, _ => l

/-- `SliceRandom::shuffle` of crate `rand` 0.8: `for i in (1..len).rev() { self.swap(i, gen_index(rng, i + 1)) }`, where
`gen_index(rng, n)` draws a number below `n`. -/
def shuffleLoop [∀ n, Sample R (Fin (n + 1))] : Nat → List α → R → List α × R
  | 0, l, r => (l, r)
  | i + 1, l, r =>
    let (j, r) := Sample.sample (α := Fin (i + 2)) r
    shuffleLoop i (swapAt l (i + 1) j) r

/-- `slice.shuffle(rng)`, used at `/repo/mpc-core/src/protocols/rep3/rngs.rs:243-244` -/
def shuffleSlice [∀ n, Sample R (Fin (n + 1))] (l : List α) (r : R) : List α × R :=
  shuffleLoop (l.length - 1) l r

namespace Rep3Rand

/-- `n` calls of `random_element_rng1` or `random_field_element_rng1`.
`/repo/mpc-core/src/protocols/rep3/rngs.rs:207-209`, `217-222` -/
def many1 [Sample R α] (n : Nat) (g : Rep3Rand R) : List α × Rep3Rand R :=
  let (a, r1) := sampleN g.rng1 n
  (a, { g with rng1 := r1 })

/-- `n` calls of `random_element_rng2` or `random_field_element_rng2`.
`/repo/mpc-core/src/protocols/rep3/rngs.rs:212-214`, `225-230` -/
def many2 [Sample R α] (n : Nat) (g : Rep3Rand R) : List α × Rep3Rand R :=
  let (b, r2) := sampleN g.rng2 n
  (b, { g with rng2 := r2 })

/-- `n` calls of `random_elements` or `random_fes`. `/repo/mpc-core/src/protocols/rep3/rngs.rs:109-113`, `126-133` -/
def manyPair [Sample R α] (n : Nat) (g : Rep3Rand R) : (List α × List α) × Rep3Rand R :=
  let (a, r1) := sampleN g.rng1 n
  let (b, r2) := sampleN g.rng2 n
  ((a, b), ⟨r1, r2⟩)

/-- `/repo/mpc-core/src/protocols/rep3/rngs.rs:240-246` -/
def randomPerm [∀ n, Sample R (Fin (n + 1))] (input : List α) (g : Rep3Rand R) : (List α × List α) × Rep3Rand R :=
  let (a, r1) := shuffleSlice input g.rng1
  let (b, r2) := shuffleSlice input g.rng2
  ((a, b), ⟨r1, r2⟩)

end Rep3Rand

end Shuffle

namespace Rep3.Radix

open Verif.Rep3.Ring (orPanic)

/-- A vector of pairs of indices; `Vec<Rep3RingShare<PermRing>>` at
`/repo/mpc-core/src/protocols/rep3_ring/gadgets/sort.rs:342-346`. -/
abbrev PermShare := List (Share (BitVec 32))

section Local

variable {F G H : Type}

/-- `for (i, al) in idx.iter().zip(alpha) { out.push(f(src[i], al)) }`, as at
`/repo/mpc-core/src/protocols/rep3_ring/gadgets/sort.rs:446-449`; `none` is an index out of bounds. -/
def lookupWith (f : F → G → H) (src : List F) (idx : List Nat) (alpha : List G) : Option (List H) :=
  (idx.zip alpha).mapM fun (ia : Nat × G) => do
    let x ← src[ia.1]?
    pure (f x ia.2)

/-- `for i in idx { out.push(src[i]) }`; `none` is an index out of bounds. -/
def lookup (src : List F) (idx : List Nat) : Option (List F) := idx.mapM fun i => src[i]?

/-- `for (des, x) in dst.iter_mut().zip(new) { *des = x }` -/
def overwrite : List F → List F → List F
  | _ :: ds, x :: xs => x :: overwrite ds xs
  | ds, [] => ds
  | [], _ => []

/-- `for (i, x) in idx.iter().zip(vals) { dst[i] = x }`; `none` is an index out of bounds. -/
def place : List F → List Nat → List F → Option (List F)
  | dst, i :: idx, x :: xs => if i < dst.length then place (dst.set i x) idx xs else none
  | dst, _, _ => some dst

/-- `for (res, x) in result.iter_mut().zip(vals) { res.a = x }` -/
def setA : List (Share F) → List F → List (Share F)
  | s :: ss, x :: xs => { s with a := x } :: setA ss xs
  | ss, [] => ss
  | [], _ => []

/-- `for (res, x) in result.iter_mut().zip(vals) { res.b = x }` -/
def setB : List (Share F) → List F → List (Share F)
  | s :: ss, x :: xs => { s with b := x } :: setB ss xs
  | ss, [] => ss
  | [], _ => []

/-- `p.0 as usize - 1` as an index: for `p = 0` the subtraction panics or wraps to an index out of bounds; `none` is
this panic. -/
def pred (p : BitVec 32) : Option Nat := if p.toNat = 0 then none else some (p.toNat - 1)

/-- Running sums: `for f in l { s = add(s, f); out.push(s) }`, with the final `s`. -/
def running {σ : Type} (f : σ → F → σ) : σ → List F → List σ × σ
  | s, [] => ([], s)
  | s, x :: xs =>
    let s := f s x
    let (l, e) := running f s xs
    (s :: l, e)

end Local

section Protocols

variable {R M F : Type} [CommRing F] [Sample R F] [Codec M (List F)]

omit [CommRing F] [Sample R F] [Codec M (List F)] in
/-- The random permutations at the beginning of `apply_inv`, `apply_inv_field` and `compose`.
`/repo/mpc-core/src/protocols/rep3_ring/gadgets/sort.rs:338-346`, `367-373`, `396-402` -/
def randomPerm [∀ n, Sample R (Fin (n + 1))] (len : Nat) : Rep3M R M PermShare := do
  let unshuffled := (List.range (len % 2 ^ 32)).map (BitVec.ofNat 32)
  let (permA, permB) ← withRand (Rep3Rand.randomPerm unshuffled)
  pure (List.zipWith Share.mk permA permB)

/-- `/repo/mpc-core/src/protocols/rep3_ring/gadgets/sort.rs:413-548`.  Vectors that are overwritten in place keep their
length, which gives the number of draws for the last step. -/
def shuffle (pi : PermShare) (privInput : List (Share F)) (pubInput : List F) : Rep3M R M (List (Share F)) := do
  let len := pi.length
  let n := privInput.length + pubInput.length
  match ← stateId with
  | .ID0 =>
    let (alpha1, alpha3) ← withRand (Rep3Rand.manyPair (α := F) n)
    let beta1 := privInput.map (fun a => a.a + a.b) ++ pubInput
    let shuffled1 ← orPanic (lookupWith (· - ·) beta1 (pi.map fun p => p.a.toNat) alpha1)
    let shuffled3 ← orPanic (lookupWith (· - ·) shuffled1 (pi.map fun p => p.b.toNat) alpha3)
    sendNextMany (overwrite alpha1 shuffled3)
    let (a, b) ← withRand (Rep3Rand.manyPair (α := F) len)
    pure (List.zipWith Share.mk a b)
  | .ID1 =>
    let alpha1 ← withRand (Rep3Rand.many2 (α := F) n)
    let beta2 := privInput.map (fun a => a.a) ++ pubInput.map (fun _ => 0)
    let shuffled1 ← orPanic (lookupWith (· + ·) beta2 (pi.map fun p => p.b.toNat) alpha1)
    let delta ← reshareMany shuffled1
    let new ← orPanic (lookup delta ((pi.take n).map fun p => p.a.toNat))
    let beta2 := overwrite beta2 new
    let b ← withRand (Rep3Rand.many2 (α := F) n)
    let rand := List.zipWith (· - ·) beta2 b
    let rcv ← sendAndRecvMany .ID2 rand .ID2
    pure (setA (b.map fun b => ⟨0, b⟩) (List.zipWith (· + ·) rcv rand))
  | .ID2 =>
    let alpha3 ← withRand (Rep3Rand.many1 (α := F) len)
    let gamma ← recvPrevMany (α := F)
    let shuffled1 ← orPanic (lookupWith (· + ·) gamma (pi.map fun p => p.a.toNat) alpha3)
    let new ← orPanic (lookup shuffled1 (pi.map fun p => p.b.toNat))
    let beta3 := overwrite alpha3 new
    let a ← withRand (Rep3Rand.many1 (α := F) len)
    let rand := List.zipWith (· - ·) beta3 a
    let rcv ← sendAndRecvMany .ID1 rand .ID1
    pure (setB (a.map fun a => ⟨a, 0⟩) (List.zipWith (· + ·) rcv rand))

/-- `/repo/mpc-core/src/protocols/rep3_ring/gadgets/sort.rs:550-668`: the body of `shuffle` without public inputs, over
a field. -/
def shuffleField (pi : PermShare) (input : List (Share F)) : Rep3M R M (List (Share F)) := shuffle pi input []

/-- `/repo/mpc-core/src/protocols/rep3_ring/gadgets/sort.rs:670-734` -/
def shuffleReveal (pi : PermShare) (input : List (Share F)) : Rep3M R M (List F) := do
  match ← stateId with
  | .ID0 =>
    let alpha1 ← withRand (Rep3Rand.many1 (α := F) input.length)
    let beta1 := input.map fun a => a.a + a.b
    let shuffled ← orPanic (lookupWith (· - ·) beta1 (pi.map fun p => p.a.toNat) alpha1)
    sendAndRecvMany .ID2 shuffled .ID2
  | .ID1 =>
    let alpha1 ← withRand (Rep3Rand.many2 (α := F) input.length)
    let beta2 := input.map fun a => a.a
    let shuffled ← orPanic (lookupWith (· + ·) beta2 (pi.map fun p => p.b.toNat) alpha1)
    sendAndRecvMany .ID2 shuffled .ID2
  | .ID2 =>
    let delta ← recvMany (α := F) .ID0
    let gamma ← recvMany (α := F) .ID1
    let index ← orPanic (lookup (pi.map fun p => p.a.toNat) (pi.map fun p => p.b.toNat))
    let g ← orPanic (lookup gamma index)
    let d ← orPanic (lookup delta index)
    let shuffled := List.zipWith (· + ·) g d
    sendBothMany shuffled
    pure shuffled

/-- `/repo/mpc-core/src/protocols/rep3_ring/gadgets/sort.rs:736-857`; as in `shuffle` the vectors keep their length. -/
def unshuffle (pi : PermShare) (input : List (Share F)) : Rep3M R M (List (Share F)) := do
  let len := pi.length
  match ← stateId with
  | .ID0 =>
    let alpha3 ← withRand (Rep3Rand.many2 (α := F) len)
    let gamma ← recvMany (α := F) .ID1
    let shuffled3 ← orPanic (place (List.replicate len 0) (pi.map fun p => p.b.toNat)
      (List.zipWith (fun alpha gamma => gamma + alpha) alpha3 gamma))
    let beta1 ← orPanic (place alpha3 (pi.map fun p => p.a.toNat) shuffled3)
    let b ← withRand (Rep3Rand.many2 (α := F) len)
    let rand := List.zipWith (· - ·) beta1 b
    let rcv ← sendAndRecvMany .ID1 rand .ID1
    pure (setA (b.map fun b => ⟨0, b⟩) (List.zipWith (· + ·) rcv rand))
  | .ID1 =>
    let alpha2 ← withRand (Rep3Rand.many1 (α := F) input.length)
    let beta2 := input.map fun a => a.b
    let shuffled3 ← orPanic (place (List.replicate len 0) (pi.map fun p => p.a.toNat)
      (List.zipWith (· + ·) alpha2 beta2))
    let delta ← sendAndRecvMany .ID0 shuffled3 .ID2
    let beta2 ← orPanic (place beta2 (pi.map fun p => p.b.toNat) delta)
    let a ← withRand (Rep3Rand.many1 (α := F) input.length)
    let rand := List.zipWith (· - ·) beta2 a
    let rcv ← sendAndRecvMany .ID0 rand .ID0
    pure (setB (a.map fun a => ⟨a, 0⟩) (List.zipWith (· + ·) rcv rand))
  | .ID2 =>
    let (alpha3, alpha2) ← withRand (Rep3Rand.manyPair (α := F) input.length)
    let beta3 := input.map fun a => a.a + a.b
    let shuffled3 ← orPanic (place (List.replicate len 0) (pi.map fun p => p.b.toNat)
      (List.zipWith (fun alpha beta => beta - alpha) alpha2 beta3))
    let shuffled2 ← orPanic (place alpha2 (pi.map fun p => p.a.toNat)
      (List.zipWith (· - ·) shuffled3 alpha3))
    sendMany .ID1 shuffled2
    let (a, b) ← withRand (Rep3Rand.manyPair (α := F) len)
    pure (List.zipWith Share.mk a b)

end Protocols

section Main

variable {R M J : Type} [∀ n, Sample R (Fin (n + 1))] [Sample R (BitVec 32)] [UintCodec M 32]

omit [∀ n, Sample R (Fin (n + 1))] in
/-- `/repo/mpc-core/src/protocols/rep3_ring/arithmetic.rs:137-158`; the masks are drawn one after the other
(`masking_elements_vec`). -/
def localMulVec (lhs rhs : PermShare) : Rep3M R M (List (BitVec 32)) :=
  letI : SampleVec R (BitVec 32) := ⟨sampleN, fun r n => sampleN_length r n⟩
  Rep3.localMulVec lhs rhs

omit [∀ n, Sample R (Fin (n + 1))] in
/-- `/repo/mpc-core/src/protocols/rep3_ring/gadgets/sort.rs:255-322` -/
def genBitPerm (privBits : PermShare) (pubBits : List (BitVec 32)) : Rep3M R M PermShare := do
  let privLen := privBits.length
  let id ← stateId
  let privF0 := privBits.map fun inp => Ring.addPublic (-inp) 1#32 id
  let privF1 := privBits
  let pubF0 := pubBits.map fun inp => 1#32 - inp
  let pubF1 := pubBits
  let (s0a, s) := running Ring.add Share.zeroShare privF0
  let (s0b, s) := running (fun s f => Ring.addPublic s f id) s pubF0
  let (s1a, s) := running Ring.add s privF1
  let (s1b, _) := running (fun s f => Ring.addPublic s f id) s pubF1
  let s0 := s0a ++ s0b
  let s1 := s1a ++ s1b
  let mul1 ← localMulVec privF0 (s0.take privLen)
  let mul2 ← localMulVec privF1 (s1.take privLen)
  let permA := List.zipWith (· + ·) mul1 mul2
  let perm ← Ring.reshareVec permA
  let t0 := List.zipWith Ring.mulPublic (s0.drop privLen) pubF0
  let t1 := List.zipWith Ring.mulPublic (s1.drop privLen) pubF1
  pure (perm ++ List.zipWith Ring.add t0 t1)

/-- `/repo/mpc-core/src/protocols/rep3_ring/gadgets/sort.rs:388-411` -/
def compose (sigma phi : PermShare) : Rep3M R M PermShare := do
  let perm ← randomPerm sigma.length
  let opened ← shuffleReveal perm sigma
  let idx ← orPanic (opened.mapM pred)
  let shuffled ← orPanic (lookup phi idx)
  unshuffle perm shuffled

/-- `/repo/mpc-core/src/protocols/rep3_ring/gadgets/sort.rs:324-356`, with `apply_inv_field` at `358-386`, which has the
same body without public inputs. -/
def applyInv {F : Type} [CommRing F] [Sample R F] [Codec M (List F)] [Codec J (List (Share F))]
    (rho : PermShare) (priv : List (Share F)) (pub : List F) :
    MPC₂ PartyID (Rep3State R) M J (List (Share F)) := do
  let len := rho.length
  let perm ← MPC₂.first (randomPerm len)
  let (opened, shuffled) ← MPC₂.join (shuffleReveal perm rho) (shuffle perm priv pub)
  let idx ← MPC₂.first (orPanic ((opened.take shuffled.length).mapM pred))
  MPC₂.first (orPanic (place (List.replicate len Share.zeroShare) idx shuffled))

/-- `/repo/mpc-core/src/protocols/rep3_ring/gadgets/sort.rs:358-386` -/
def applyInvField {F : Type} [CommRing F] [Sample R F] [Codec M (List F)] [Codec J (List (Share F))]
    (rho : PermShare) (bits : List (Share F)) : MPC₂ PartyID (Rep3State R) M J (List (Share F)) :=
  applyInv rho bits []

omit [∀ n, Sample R (Fin (n + 1))] in
/-- `/repo/mpc-core/src/protocols/rep3_ring/gadgets/sort.rs:241-253` -/
def injectBit {w : Nat} (inputs : List (Share (BitVec w))) (bit : Nat) : Rep3M R M PermShare :=
  Ring.bitInjectMany (inputs.map fun inp =>
    ⟨BitVec.ofNat 32 (inp.a.getLsbD bit).toNat, BitVec.ofNat 32 (inp.b.getLsbD bit).toNat⟩)

omit [∀ n, Sample R (Fin (n + 1))] [Sample R (BitVec 32)] [UintCodec M 32] in
/-- `/repo/mpc-core/src/protocols/rep3_ring/gadgets/sort.rs:231-239` -/
def injectPublicBit (w : Nat) {p : Nat} (inputs : List (ZMod p)) (bit : Nat) : List (BitVec 32) :=
  inputs.map fun inp => BitVec.ofNat 32 ((Uint.ofField w inp).getLsbD bit).toNat

/-- The loop of `/repo/mpc-core/src/protocols/rep3_ring/gadgets/sort.rs:184-194`; the iterators never run out, because the
lengths were checked (`none` would be the panic of `expect`). -/
def orderLoop (id : PartyID) : PermShare → List (BitVec 32) → List Bool → Option PermShare
  | _, _, [] => some []
  | x :: xs, ys, true :: os => (orderLoop id xs ys os).map (x :: ·)
  | xs, y :: ys, false :: os => (orderLoop id xs ys os).map (promoteToTrivialShare id y :: ·)
  | _, _, _ => none

/-- `/repo/mpc-core/src/protocols/rep3_ring/gadgets/sort.rs:175-196`; `none` is a failed assertion. -/
def orderAndPromote (priv : PermShare) (pub : List (BitVec 32)) (order : List Bool) (id : PartyID) :
    Option PermShare :=
  if priv.length ≠ (order.filter fun x => x).length then none
  else if pub.length ≠ (order.filter fun x => !x).length then none
  else orderLoop id priv pub order

variable {p w : Nat} [Sample R (ZMod p)] [Codec M (List (ZMod p))] [Sample R (BitVec w)] [UintCodec M w]
  [Codec J (List (Share (BitVec w)))] [Codec J (List (Share (BitVec 32)))]

omit [∀ n, Sample R (Fin (n + 1))] [Sample R (BitVec 32)] [UintCodec M 32] [Codec J (List (Share (BitVec w)))]
  [Codec J (List (Share (BitVec 32)))] in
/-- The body of both closures of `/repo/mpc-core/src/protocols/rep3_ring/gadgets/sort.rs:112-135`. -/
def decomposeHalf (w : Nat) [Sample R (BitVec w)] [UintCodec M w] [Yao.YaoRng R] [Yao.YaoNet M] (inputs : List (Share (ZMod p))) (bitsize : Nat) :
    Rep3M R M (List (Share (BitVec w))) :=
  inputs.mapM fun inp => do
    let binary ← a2bSelector inp
    pure (binary.andMask (Uint.mask w bitsize))

omit [∀ n, Sample R (Fin (n + 1))] [Sample R (BitVec 32)] [UintCodec M 32] [Codec J (List (Share (BitVec 32)))] in
/-- `/repo/mpc-core/src/protocols/rep3_ring/gadgets/sort.rs:97-146`; `F::Uint::mask` panics if `bitsize` is larger than
the width (`/repo/mpc-core/src/uint/ruint_wrapper.rs:384-391`). -/
def decompose [Yao.YaoRng R] [Yao.YaoNet M] (privInputs : List (Share (ZMod p))) (bitsize : Nat) :
    MPC₂ PartyID (Rep3State R) M J (List (Share (BitVec w))) :=
  if bitsize > w then MPC₂.first (panicWith "mask width exceeds capacity")
  else do
    let (x, y) ← MPC₂.join (decomposeHalf w (privInputs.take (privInputs.length / 2)) bitsize)
      (decomposeHalf w (privInputs.drop (privInputs.length / 2)) bitsize)
    pure (x ++ y)

variable (w) in
/-- `/repo/mpc-core/src/protocols/rep3_ring/gadgets/sort.rs:148-173` -/
def genPerm [Yao.YaoRng R] [Yao.YaoNet M] (privInputs : List (Share (ZMod p))) (pubInputs : List (ZMod p)) (bitsize : Nat) :
    MPC₂ PartyID (Rep3State R) M J PermShare := do
  let privBits ← decompose (w := w) privInputs bitsize
  let privBit0 ← MPC₂.first (injectBit privBits 0)
  let pubBit0 := injectPublicBit w pubInputs 0
  let perm ← MPC₂.first (genBitPerm privBit0 pubBit0)
  (List.range' 1 (bitsize - 1)).foldlM (fun perm i => do
    let privBitI ← MPC₂.first (injectBit privBits i)
    let pubBitI := injectPublicBit w pubInputs i
    let bitI ← applyInv perm privBitI pubBitI
    let permI ← MPC₂.first (genBitPerm bitI [])
    MPC₂.first (compose perm permI)) perm

variable (w) in
/-- `/repo/mpc-core/src/protocols/rep3_ring/gadgets/sort.rs:198-229` -/
def genPermOrdered [Yao.YaoRng R] [Yao.YaoNet M] (privInputs : List (Share (ZMod p))) (pubInputs : List (ZMod p)) (order : List Bool) (bitsize : Nat) :
    MPC₂ PartyID (Rep3State R) M J PermShare := do
  let privBits ← decompose (w := w) privInputs bitsize
  let privBit0 ← MPC₂.first (injectBit privBits 0)
  let pubBit0 := injectPublicBit w pubInputs 0
  let id ← MPC₂.first stateId
  let perm ← MPC₂.first (orPanic (orderAndPromote privBit0 pubBit0 order id))
  let perm ← MPC₂.first (genBitPerm perm [])
  (List.range' 1 (bitsize - 1)).foldlM (fun perm i => do
    let privBitI ← MPC₂.first (injectBit privBits i)
    let pubBitI := injectPublicBit w pubInputs i
    let bitI ← MPC₂.first (orPanic (orderAndPromote privBitI pubBitI order id))
    let bitI ← applyInv perm bitI []
    let permI ← MPC₂.first (genBitPerm bitI [])
    MPC₂.first (compose perm permI)) perm

variable [Codec J (List (Share (ZMod p)))]

variable (w) in
/-- `/repo/mpc-core/src/protocols/rep3_ring/gadgets/sort.rs:25-62`; `usize` is wider than `u32`. -/
def radixSortFields [Yao.YaoRng R] [Yao.YaoNet M] (privInputs : List (Share (ZMod p))) (pubInputs : List (ZMod p)) (bitsize : Nat) :
    MPC₂ PartyID (Rep3State R) M J (List (Share (ZMod p))) :=
  if privInputs.length + pubInputs.length > 2 ^ 32 - 1 then
    MPC₂.bail "Too many inputs for radix sort. Use a larger PermRing."
  else do
    let perm ← genPerm w privInputs pubInputs bitsize
    let id ← MPC₂.first stateId
    applyInvField perm (privInputs ++ pubInputs.map fun value => promoteToTrivialShare id value)

variable (w) in
/-- `/repo/mpc-core/src/protocols/rep3_ring/gadgets/sort.rs:64-95` -/
def radixSortFieldsVecBy [Yao.YaoRng R] [Yao.YaoNet M] (privKey : List (Share (ZMod p))) (pubKey : List (ZMod p)) (order : List Bool)
    (inputs : List (List (Share (ZMod p)))) (bitsize : Nat) :
    MPC₂ PartyID (Rep3State R) M J (List (List (Share (ZMod p)))) :=
  if privKey.length + pubKey.length > 2 ^ 32 - 1 then
    MPC₂.bail "Too many inputs for radix sort. Use a larger PermRing."
  else do
    let perm ← genPermOrdered w privKey pubKey order bitsize
    inputs.mapM fun inp => applyInvField perm inp

end Main

end Rep3.Radix

end Verif
