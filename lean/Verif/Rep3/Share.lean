import Verif.Rep3.State
import Mathlib.Algebra.Group.Defs

/-!
# Replicated shares: the dealer side

Models `share_*` and `combine_*` of `/repo/mpc-core/src/protocols/rep3.rs:135-653` and the share
types of `/repo/mpc-core/src/protocols/rep3/arithmetic/types.rs`,
`/repo/mpc-core/src/protocols/rep3/binary/types.rs`,
`/repo/mpc-core/src/protocols/rep3/pointshare/types.rs` and
`/repo/mpc-core/src/protocols/rep3_ring/arithmetic/types.rs`.
Those types are all pairs `{ a, b }` that differ in the type of the components, so one structure is
used here.
-/

namespace Verif

open PartyID

/-- What one party holds: its own additive share `a` and the share `b` of the previous party.
`/repo/mpc-core/src/protocols/rep3/arithmetic/types.rs:18-28` -/
structure Share (α : Type) where
  a : α
  b : α
  deriving DecidableEq, Repr

namespace Rep3

variable {R α : Type}

/-- `/repo/mpc-core/src/protocols/rep3.rs:281-292` (field elements), `552-563` (curve points);
`/repo/mpc-core/src/protocols/rep3_ring.rs` (ring elements) has the same body. The result also
carries the advanced generator. -/
def shareElement [Sample R α] [Sub α] (val : α) (rng : R) : (PartyID → Share α) × R :=
  let (a, rng) := Sample.sample rng
  let (b, rng) := Sample.sample rng
  let c := val - a - b
  (three ⟨a, c⟩ ⟨b, a⟩ ⟨c, b⟩, rng)

/-- `/repo/mpc-core/src/protocols/rep3.rs:295-303` -/
def shareElementAdditive [Sample R α] [Sub α] (val : α) (rng : R) : (PartyID → α) × R :=
  let (a, rng) := Sample.sample rng
  let (b, rng) := Sample.sample rng
  let c := val - a - b
  (three a b c, rng)

/-- A loop over the values that pushes the `i`-th component of each result on the `i`-th vector.
The loops of `/repo/mpc-core/src/protocols/rep3.rs:382-388`, `422-428`, `573-579`. -/
def shareLoop {α β : Type} (f : α → R → (PartyID → β) × R) :
    List α → R → (PartyID → List β) × R
  | [], rng => (fun _ => [], rng)
  | v :: vs, rng =>
    let (s, rng) := f v rng
    let (ss, rng) := shareLoop f vs rng
    (fun i => s i :: ss i, rng)

/-- `/repo/mpc-core/src/protocols/rep3.rs:375-389` (field), `566-580` (points) -/
def shareElements [Sample R α] [Sub α] : List α → R → (PartyID → List (Share α)) × R :=
  shareLoop shareElement

/-- `/repo/mpc-core/src/protocols/rep3.rs:415-429` -/
def shareElementsAdditive [Sample R α] [Sub α] : List α → R → (PartyID → List α) × R :=
  shareLoop shareElementAdditive

/-- The loop body of `/repo/mpc-core/src/protocols/rep3.rs:399-410` and `439-450`: absent values
stay absent and consume no randomness. -/
def shareMaybe {α β : Type} (f : α → R → (PartyID → β) × R) :
    Option α → R → (PartyID → Option β) × R
  | some v, rng => let (s, rng) := f v rng; (fun i => some (s i), rng)
  | none, rng => (fun _ => none, rng)

/-- `/repo/mpc-core/src/protocols/rep3.rs:392-412` -/
def shareMaybeElements [Sample R α] [Sub α] :
    List (Option α) → R → (PartyID → List (Option (Share α))) × R :=
  shareLoop (shareMaybe shareElement)

/-- `/repo/mpc-core/src/protocols/rep3.rs:432-452` -/
def shareMaybeElementsAdditive [Sample R α] [Sub α] :
    List (Option α) → R → (PartyID → List (Option α)) × R :=
  shareLoop (shareMaybe shareElementAdditive)

/-- `/repo/mpc-core/src/protocols/rep3.rs:155-165`: an explicit share, or a seed with a length. -/
inductive Seeded (T Seed : Type) where
  | shares (v : T)
  | seed (s : Seed) (len : Nat)

/-- `/repo/mpc-core/src/protocols/rep3.rs:228-238` -/
structure ReplicatedSeed (T Seed : Type) where
  a : Seeded T Seed
  b : Seeded T Seed

variable {Seed : Type}

/-- `/repo/mpc-core/src/protocols/rep3.rs:185-197` -/
def Seeded.expandVec (R : Type) [Sample R α] [Seedable R Seed] : Seeded (List α) Seed → List α
  | .shares v => v
  | .seed s len => (sampleN (R := R) (Seedable.fromSeed s) len).1

/-- `/repo/mpc-core/src/protocols/rep3.rs:200-205` -/
def Seeded.length : Seeded (List α) Seed → Nat
  | .shares v => v.length
  | .seed _ len => len

/-- `/repo/mpc-core/src/protocols/rep3.rs:213-222`; `none` is the failed assertion `len == 1`. -/
def Seeded.expand (R : Type) [Sample R α] [Seedable R Seed] : Seeded α Seed → Option α
  | .shares v => some v
  | .seed s len => if len = 1 then some (Sample.sample (R := R) (Seedable.fromSeed s)).1 else none

/-- `/repo/mpc-core/src/protocols/rep3.rs:245-249` -/
def ReplicatedSeed.expand (R : Type) [Sample R α] [Seedable R Seed] (s : ReplicatedSeed α Seed) :
    Option (Share α) := do
  let a ← s.a.expand R
  let b ← s.b.expand R
  pure ⟨a, b⟩

/-- `/repo/mpc-core/src/protocols/rep3.rs:257-267` -/
def ReplicatedSeed.expandVec (R : Type) [Sample R α] [Seedable R Seed]
    (s : ReplicatedSeed (List α) Seed) : Except Err (List (Share α)) :=
  let a := s.a.expandVec R
  let b := s.b.expandVec R
  if a.length ≠ b.length then .error (.err "Lengths of shares do not match")
  else .ok (List.zipWith Share.mk a b)

/-- `/repo/mpc-core/src/protocols/rep3.rs:270-277` -/
def ReplicatedSeed.length (s : ReplicatedSeed (List α) Seed) : Except Err Nat :=
  if s.a.length ≠ s.b.length then .error (.err "Lengths of shares do not match")
  else .ok s.a.length

/-- `/repo/mpc-core/src/protocols/rep3.rs:345-372`; `R'` is the type of the dealer's generator. -/
def shareElementAdditiveSeeded {R' : Type} (R : Type) [Sample R' Seed] [Sample R α]
    [Seedable R Seed] [Sub α] (val : α) (rng : R') : (PartyID → Seeded α Seed) × R' :=
  let (seedB, rng) := Sample.sample (α := Seed) rng
  let (seedC, rng) := Sample.sample (α := Seed) rng
  let (b, _) := Sample.sample (R := R) (α := α) (Seedable.fromSeed seedB)
  let (c, _) := Sample.sample (R := R) (α := α) (Seedable.fromSeed seedC)
  let a := val - b - c
  (three (.shares a) (.seed seedB 1) (.seed seedC 1), rng)

/-- `/repo/mpc-core/src/protocols/rep3.rs:306-342` -/
def shareElementSeeded {R' : Type} (R : Type) [Sample R' Seed] [Sample R α]
    [Seedable R Seed] [Sub α] (val : α) (rng : R') : (PartyID → ReplicatedSeed α Seed) × R' :=
  let (seedB, rng) := Sample.sample (α := Seed) rng
  let (seedC, rng) := Sample.sample (α := Seed) rng
  let (b, _) := Sample.sample (R := R) (α := α) (Seedable.fromSeed seedB)
  let (c, _) := Sample.sample (R := R) (α := α) (Seedable.fromSeed seedC)
  let a := Seeded.shares (val - b - c)
  let b := Seeded.seed seedB 1
  let c := Seeded.seed seedC 1
  (three ⟨a, c⟩ ⟨b, a⟩ ⟨c, b⟩, rng)

/-- The loop `/repo/mpc-core/src/protocols/rep3.rs:478-483` and `523-528`. -/
def seededLoop [Sample R α] [Sub α] : List α → R → R → List α
  | [], _, _ => []
  | v :: vs, rngB, rngC =>
    let (b, rngB) := Sample.sample rngB
    let (c, rngC) := Sample.sample rngC
    (v - b - c) :: seededLoop vs rngB rngC

/-- `/repo/mpc-core/src/protocols/rep3.rs:500-533` -/
def shareElementsAdditiveSeeded {R' : Type} (R : Type) [Sample R' Seed] [Sample R α]
    [Seedable R Seed] [Sub α] (vals : List α) (rng : R') :
    (PartyID → Seeded (List α) Seed) × R' :=
  let (seedB, rng) := Sample.sample (α := Seed) rng
  let (seedC, rng) := Sample.sample (α := Seed) rng
  let a := seededLoop (R := R) vals (Seedable.fromSeed seedB) (Seedable.fromSeed seedC)
  (three (.shares a) (.seed seedB vals.length) (.seed seedC vals.length), rng)

/-- `/repo/mpc-core/src/protocols/rep3.rs:455-497` -/
def shareElementsSeeded {R' : Type} (R : Type) [Sample R' Seed] [Sample R α]
    [Seedable R Seed] [Sub α] (vals : List α) (rng : R') :
    (PartyID → ReplicatedSeed (List α) Seed) × R' :=
  let (seedB, rng) := Sample.sample (α := Seed) rng
  let (seedC, rng) := Sample.sample (α := Seed) rng
  let a := Seeded.shares
    (seededLoop (R := R) vals (Seedable.fromSeed seedB) (Seedable.fromSeed seedC))
  let b := Seeded.seed seedB vals.length
  let c := Seeded.seed seedC vals.length
  (three ⟨a, c⟩ ⟨b, a⟩ ⟨c, b⟩, rng)

/-- `/repo/mpc-core/src/protocols/rep3.rs:583-589` (field), `631-637` (points) -/
def combineElement [Add α] (s1 s2 s3 : Share α) : α := s1.a + s2.a + s3.a

/-- `/repo/mpc-core/src/protocols/rep3.rs:594-605` (field), `642-653` (points); `none` is the failed
assertion on the lengths. -/
def combineElements [Add α] (s1 s2 s3 : List (Share α)) : Option (List α) :=
  if s1.length = s2.length ∧ s2.length = s3.length then
    some (List.zipWith (fun x (yz : Share α × Share α) => combineElement x yz.1 yz.2) s1
      (s2.zip s3))
  else none

/-- `F::Uint::mask(k)`: the lowest `k` bits set. The code panics for `k > BITS`; no caller in the
model passes such a `k`. `/repo/mpc-core/src/uint/mod.rs:73-78` -/
def mask (w k : Nat) : BitVec w := BitVec.ofNat w (2 ^ k - 1)

/-- `/repo/mpc-core/src/uint/ruint_wrapper.rs:415-422`: all limbs are drawn, then masked. -/
def randomBits {w : Nat} [Sample R (BitVec w)] (rng : R) (bitlen : Nat) : BitVec w × R :=
  let (x, rng) := Sample.sample rng
  (x &&& mask w bitlen, rng)

/-- `/repo/mpc-core/src/protocols/rep3.rs:536-549`; `val` is `val.to_uint()`, `bitlen` is
`F::MODULUS_BIT_SIZE`. -/
def shareBinary {w : Nat} [Sample R (BitVec w)] (bitlen : Nat) (val : BitVec w) (rng : R) :
    (PartyID → Share (BitVec w)) × R :=
  let (a, rng) := randomBits rng bitlen
  let (b, rng) := randomBits rng bitlen
  let c := val ^^^ a ^^^ b
  (three ⟨a, c⟩ ⟨b, a⟩ ⟨c, b⟩, rng)

/-- `/repo/mpc-core/src/protocols/rep3.rs:608-614` -/
def combineBinaryElement {w : Nat} (s1 s2 s3 : Share (BitVec w)) : BitVec w :=
  s1.a ^^^ s2.a ^^^ s3.a

/-- `/repo/mpc-core/src/protocols/rep3.rs:617-628`; `none` is the failed assertion. -/
def combineBinaryElements {w : Nat} (s1 s2 s3 : List (Share (BitVec w))) :
    Option (List (BitVec w)) :=
  if s1.length = s2.length ∧ s2.length = s3.length then
    some (List.zipWith (fun x (yz : Share (BitVec w) × Share (BitVec w)) =>
      combineBinaryElement x yz.1 yz.2) s1 (s2.zip s3))
  else none

end Rep3

end Verif
