import Verif.Ring.RingLemmas
import Verif.Rep3.ShareLemmas
import Verif.Props.Arith
import Verif.Props.Demo

/-!
# Properties C42 - C44: integers modulo `2^k`

`BitVec k` is the ring of integers modulo `2^k`; its `+`, `-`, `*` wrap, `toNat` is the integer value.  The
adders and the zero test of the code are written for widths that are powers of two (`Bit`, `u8`, ...,
`u128` and `RUint` of such a width): the hypothesis is `hd : k = 2 ^ d`.  A shared bit that is the result
of a comparison is a share over the one-bit ring.  `Ensures` and `Corr` are explained in `Props/Arith.lean`;
operations that choose the conversion by the state's setting are proved for both settings.
-/

namespace Verif.Props

open PartyID Rep3 Demo

variable {R M : Type} {k l : Nat} {t : A2BType} {st : PartyID → Rep3State R}

namespace RingDemo

/-- An additive sharing of `200` modulo `256`: `17 + 250 + 189`. -/
def x200 : PartyID → Share (BitVec 8) := three ⟨17, 189⟩ ⟨250, 17⟩ ⟨189, 250⟩
/-- An additive sharing of `3` modulo `256`: `100 + 100 + 59`. -/
def x3 : PartyID → Share (BitVec 8) := three ⟨100, 59⟩ ⟨100, 100⟩ ⟨59, 100⟩
/-- A sharing of the bit `1`: `1 + 1 + 1`. -/
def bit1 : PartyID → Share (BitVec 1) := three ⟨1, 1⟩ ⟨1, 1⟩ ⟨1, 1⟩
/-- A sharing of the bit `0`: `1 + 1 + 0`. -/
def bit0 : PartyID → Share (BitVec 1) := three ⟨1, 0⟩ ⟨1, 1⟩ ⟨0, 1⟩

theorem isShare_x200 : IsShare x200 200#8 := ⟨by intro i; cases i <;> rfl, by decide⟩
theorem isShare_x3 : IsShare x3 3#8 := ⟨by intro i; cases i <;> rfl, by decide⟩
theorem isShare_bit1 : IsShare bit1 1#1 := ⟨by intro i; cases i <;> rfl, by decide⟩
theorem isShare_bit0 : IsShare bit0 0#1 := ⟨by intro i; cases i <;> rfl, by decide⟩
theorem isBShare_bit1 : IsBShare bit1 1#1 := ⟨by intro i; cases i <;> rfl, by decide⟩
theorem isBShare_bit0 : IsBShare bit0 0#1 := ⟨by intro i; cases i <;> rfl, by decide⟩
theorem isShares_200_3 : IsShares (fun i => [x200 i, x3 i]) [200#8, 3#8] :=
  ⟨[x200, x3], rfl, .cons isShare_x200 (.cons isShare_x3 .nil)⟩
theorem isBShares_bits : IsBShares (fun i => [bit1 i, bit0 i]) [1#1, 0#1] :=
  ⟨[bit1, bit0], rfl, .cons isBShare_bit1 (.cons isBShare_bit0 .nil)⟩
theorem isShares_bits : IsShares (fun i => [bit1 i, bit0 i]) [1#1, 0#1] :=
  ⟨[bit1, bit0], rfl, .cons isShare_bit1 (.cons isShare_bit0 .nil)⟩

end RingDemo

open RingDemo

/-! ## C42 -/

/-- C42: sharing and combining ring elements, as sums and as XORs. -/
theorem C42_share [Sample R (BitVec k)] (v : BitVec k) (rng : R) :
    (let s := (Ring.shareRingElement v rng).1
     IsShare s v ∧ Ring.combineRingElement (s ID0) (s ID1) (s ID2) = v) ∧
    (let s := (Ring.shareRingElementBinary v rng).1
     IsBShare s v ∧ Ring.combineRingElementBinary (s ID0) (s ID1) (s ID2) = v) := by
  have h1 : IsShare (Ring.shareRingElement v rng).1 v := shareElement_isShare v rng
  have h2 : IsBShare (Ring.shareRingElementBinary v rng).1 v := by
    refine ⟨by intro i; cases i <;> rfl, ?_⟩
    simp only [Ring.shareRingElementBinary, three]
    generalize (Sample.sample (α := BitVec k) rng).1 = a
    generalize (Sample.sample (α := BitVec k) (Sample.sample (α := BitVec k) rng).2).1 = b
    ext i hi
    simp only [BitVec.getElem_xor]
    cases v[i] <;> cases a[i] <;> cases b[i] <;> rfl
  exact ⟨⟨h1, h1.2⟩, ⟨h2, h2.2⟩⟩

example : Ring.combineRingElement ((Ring.shareRingElement 200#8 17).1 ID0)
    ((Ring.shareRingElement 200#8 17).1 ID1) ((Ring.shareRingElement 200#8 17).1 ID2) = 200#8 :=
  (C42_share (R := Nat) 200#8 17).1.2

/-- C42: vectors; combining works for every sharing, not only those made by the dealer. -/
theorem C42_share_vec [Sample R (BitVec k)] (vs : List (BitVec k)) (rng : R) :
    IsShares (Ring.shareRingElements vs rng).1 vs ∧ IsBShares (Ring.shareRingElementsBinary vs rng).1 vs ∧
    ∀ s, IsShares s vs → Ring.combineRingElements (s ID0) (s ID1) (s ID2) = some vs := by
  refine ⟨?_, ?_, fun s h => combineElements_of_isShares h⟩
  · obtain ⟨l, h1, h2⟩ := shareLoop_columns (f := Ring.shareRingElement) (fun v r => (C42_share v r).1.1) vs rng
    exact ⟨l, h1, h2⟩
  · obtain ⟨l, h1, h2⟩ := shareLoop_columns (f := Ring.shareRingElementBinary)
      (fun v r => (C42_share v r).2.1) vs rng
    exact ⟨l, h1, h2⟩

/-- C42: local operations. -/
theorem C42_linear {a b : PartyID → Share (BitVec k)} {x y : BitVec k} (ha : IsShare a x)
    (hb : IsShare b y) (c : BitVec k) :
    IsShare (fun i => Ring.add (a i) (b i)) (x + y) ∧
    IsShare (fun i => Ring.sub (a i) (b i)) (x - y) ∧
    IsShare (fun i => Ring.neg (a i)) (-x) ∧
    IsShare (fun i => Ring.mulPublic (a i) c) (x * c) ∧
    IsShare (fun i => Ring.addPublic (a i) c i) (x + c) ∧
    IsShare (fun i => Ring.subSharedByPublic (a i) c i) (x - c) ∧
    IsShare (fun i => Ring.subPublicByShared c (a i) i) (c - x) ∧
    IsShare (fun i => Ring.addMulPublic (a i) (b i) c) (x + y * c) ∧
    IsShare (fun i => Ring.promoteToTrivialShare i c) c := by
  obtain ⟨h1, h2, h3, h4, h5, h6, h7, h8, -, h9, -⟩ := C06_linear ha hb c
  exact ⟨h1, h2, h3, h4, h5, h6, h7, h8, h9⟩

example : IsShare (fun i => Ring.add (x200 i) (x200 i)) 144#8 := (C42_linear isShare_x200 isShare_x200 0).1
example : IsShare (fun i => Ring.add (bit1 i) (bit1 i)) 0#1 := (C42_linear isShare_bit1 isShare_bit1 0).1

/-- C42: vector addition and subtraction. -/
theorem C42_linear_vec {a b : PartyID → List (Share (BitVec k))} {x y : List (BitVec k)}
    (ha : IsShares a x) (hb : IsShares b y) (h : x.length = y.length) :
    IsShares (fun i => Ring.addVecAssign (a i) (b i)) (List.zipWith (· + ·) x y) ∧
    IsShares (fun i => Ring.subVecAssign (a i) (b i)) (List.zipWith (· - ·) x y) :=
  C06_linear_vec ha hb h

/-- C42: multiplication by a public power of two; the code panics for exponents of at least the width. -/
theorem C42_pow2 {a : PartyID → Share (BitVec k)} {x : BitVec k} (ha : IsShare a x) (n : BitVec k)
    (hk : k ≤ 2 ^ 64) :
    (n.toNat < k → ∃ r, (∀ i, Ring.pow2Public (a i) n = some (r i)) ∧
      IsShare r (BitVec.ofNat k (x.toNat * 2 ^ n.toNat))) ∧
    (n ≠ 0#k → k ≤ n.toNat → ∀ i, Ring.pow2Public (a i) n = none) := by
  constructor
  · intro hn
    by_cases h0 : n = 0#k
    · subst h0
      exact ⟨a, fun i => by simp [Ring.pow2Public], by simpa using ha⟩
    · refine ⟨fun i => mulPublic (a i) (1#k <<< n.toNat), fun i => ?_, ?_⟩
      · have h1 : ¬ 2 ^ 64 ≤ n.toNat := by omega
        have h2 : ¬ k ≤ n.toNat := by omega
        simp only [Ring.pow2Public, h0, ge_iff_le, h1, h2, if_false]
      · have e : BitVec.ofNat k (x.toNat * 2 ^ n.toNat) = x * (1#k <<< n.toNat) := by
          apply BitVec.eq_of_toNat_eq
          simp only [BitVec.toNat_ofNat, BitVec.toNat_mul, BitVec.toNat_shiftLeft, Nat.shiftLeft_eq]
          rw [Nat.mul_mod_mod, Nat.mul_mod, Nat.mul_mod x.toNat]
          simp
        rw [e]
        exact ha.scale _
  · intro h0 h1 i
    simp only [Ring.pow2Public, h0, if_false]
    split
    · rfl
    · simp [h1]

example : ∃ r, (∀ i, Ring.pow2Public (x3 i) 7#8 = some (r i)) ∧ IsShare r 128#8 :=
  (C42_pow2 isShare_x3 7#8 (by norm_num)).1 (by decide)

section Ops

variable [Sample R (BitVec k)] [UintCodec M k]

/-- C42: multiplication. -/
theorem C42_mul {a b : PartyID → Share (BitVec k)} {x y : BitVec k} (ha : IsShare a x)
    (hb : IsShare b y) (hst : Corr t st) :
    Ensures (M := M) (fun i => Ring.mul (a i) (b i)) st (fun r st' => IsShare r (x * y) ∧ Corr t st') :=
  (spec_mul ha hb hst).ensures

example : Ensures (M := Msg) (fun i => Ring.mul (x200 i) (x3 i)) states (fun r st' =>
    IsShare r 88#8 ∧ Corr .direct st') := C42_mul isShare_x200 isShare_x3 corr_states
example : Ensures (M := Msg) (fun i => Ring.mul (bit1 i) (bit1 i)) states (fun r st' =>
    IsShare r 1#1 ∧ Corr .direct st') := C42_mul isShare_bit1 isShare_bit1 corr_states

/-- C42: vector multiplication. -/
theorem C42_mul_vec {a b : PartyID → List (Share (BitVec k))} {x y : List (BitVec k)} (ha : IsShares a x)
    (hb : IsShares b y) (h : x.length = y.length) (hst : Corr t st) :
    Ensures (M := M) (fun i => Ring.mulVec (a i) (b i)) st (fun r st' =>
      IsShares r (List.zipWith (· * ·) x y) ∧ Corr t st') :=
  (C08_mul_vec ha hb h hst).mono fun _ _ h => ⟨h.1, h.2.2⟩

/-- C42: addition of a product. -/
theorem C42_add_mul {a b c : PartyID → Share (BitVec k)} {x y z : BitVec k} (ha : IsShare a x)
    (hb : IsShare b y) (hc : IsShare c z) (hst : Corr t st) :
    Ensures (M := M) (fun i => Ring.addMul (a i) (b i) (c i)) st (fun r st' =>
      IsShare r (x + y * z) ∧ Corr t st') :=
  C08_add_mul ha hb hc hst

/-- C42: selection by a shared bit. -/
theorem C42_cmux {c a b : PartyID → Share (BitVec k)} {z : Bool} {x y : BitVec k}
    (hc : IsShare c (if z then 1#k else 0#k)) (ha : IsShare a x) (hb : IsShare b y) (hst : Corr t st) :
    Ensures (M := M) (fun i => Ring.cmux (c i) (a i) (b i)) st (fun r st' =>
      IsShare r (if z then x else y) ∧ Corr t st') := by
  refine ((spec_cmux hc ha hb hst).mono fun r st' h => ⟨?_, h.2⟩).ensures
  convert h.1 using 1
  cases z
  · show y = y + (0 : BitVec k) * (x - y)
    ring
  · show x = y + (1 : BitVec k) * (x - y)
    ring

example : Ensures (M := Msg) (fun i => Ring.cmux (bit0 i) (bit0 i) (bit1 i)) states (fun r st' =>
    IsShare r 1#1 ∧ Corr .direct st') :=
  C42_cmux (z := false) isShare_bit0 isShare_bit0 isShare_bit1 corr_states

/-- C42: opening. -/
theorem C42_open {a : PartyID → Share (BitVec k)} {x : BitVec k} (ha : IsShare a x) :
    Ensures (M := M) (fun i => Ring.openShare (a i)) st (fun r st' => r = (fun _ => x) ∧ st' = st) :=
  (spec_open ha).ensures

/-- C42: opening vectors. -/
theorem C42_open_vec {a : PartyID → List (Share (BitVec k))} {x : List (BitVec k)} (ha : IsShares a x) :
    Ensures (M := M) (fun i => Ring.openVec (a i)) st (fun r st' => r = (fun _ => x) ∧ st' = st) :=
  (spec_openVec ha).ensures

/-- C42: opening of XOR shares. -/
theorem C42_open_bits {a : PartyID → Share (BitVec k)} {x : BitVec k} (ha : IsBShare a x) :
    Ensures (M := M) (fun i => Ring.openBits (a i)) st (fun r st' => r = (fun _ => x) ∧ st' = st) := by
  simp only [Ring.openBits_eq]
  exact (Bin.spec_open ha).ensures

/-- C42: opening of a product. -/
theorem C42_mul_open {a b : PartyID → Share (BitVec k)} {x y : BitVec k} (ha : IsShare a x)
    (hb : IsShare b y) (hst : Corr t st) :
    Ensures (M := M) (fun i => Ring.mulOpen (a i) (b i)) st (fun r st' =>
      (∀ i, r i = x * y) ∧ Corr t st') :=
  C10_mul_open ha hb hst

/-- C42: powers with a public exponent. -/
theorem C42_pow {a : PartyID → Share (BitVec k)} {x : BitVec k} (ha : IsShare a x) (n : BitVec k)
    (hst : Corr t st) :
    Ensures (M := M) (fun i => Ring.powPublic (a i) n) st (fun r st' =>
      IsShare r (x ^ n.toNat) ∧ Corr t st') :=
  (Ring.spec_powPublic n ha hst).ensures

example : Ensures (M := Msg) (fun i => Ring.powPublic (x3 i) 6#8) states (fun r st' =>
    IsShare r (3#8 ^ 6) ∧ Corr .direct st') := C42_pow isShare_x3 6#8 corr_states

/-- C42: exclusive or of shared bits in arithmetic form. -/
theorem C42_arithmetic_xor {a b : PartyID → Share (BitVec k)} {x y : Bool}
    (ha : IsShare a (if x then 1#k else 0#k)) (hb : IsShare b (if y then 1#k else 0#k)) (hst : Corr t st) :
    Ensures (M := M) (fun i => Ring.arithmeticXor (a i) (b i)) st (fun r st' =>
      IsShare r (if x ^^ y then 1#k else 0#k) ∧ Corr t st') := by
  refine ((Ring.spec_arithmeticXor ha hb hst).mono fun r st' h => ⟨?_, h.2⟩).ensures
  convert h.1 using 1
  cases x <;> cases y
  · show (0 : BitVec k) = 0 + 0 - 2 * (0 * 0)
    ring
  · show (1 : BitVec k) = 0 + 1 - 2 * (0 * 1)
    ring
  · show (1 : BitVec k) = 1 + 0 - 2 * (1 * 0)
    ring
  · show (0 : BitVec k) = 1 + 1 - 2 * (1 * 1)
    ring

example : Ensures (M := Msg) (fun i => Ring.arithmeticXor (bit1 i) (bit0 i)) states (fun r st' =>
    IsShare r 1#1 ∧ Corr .direct st') :=
  C42_arithmetic_xor (x := true) (y := false) isShare_bit1 isShare_bit0 corr_states

/-- C42: bitwise operations on XOR shares. -/
theorem C42_and {a b : PartyID → Share (BitVec k)} {x y : BitVec k} (ha : IsBShare a x)
    (hb : IsBShare b y) (hst : Corr t st) :
    Ensures (M := M) (fun i => Ring.and (a i) (b i)) st (fun r st' => IsBShare r (x &&& y) ∧ Corr t st') ∧
    Ensures (M := M) (fun i => Ring.or (a i) (b i)) st (fun r st' => IsBShare r (x ||| y) ∧ Corr t st') := by
  simp only [Ring.and_eq, Ring.or_eq]
  exact ⟨(Bin.spec_and ha hb hst).ensures, (Bin.spec_or ha hb hst).ensures⟩

example : Ensures (M := Msg) (fun i => Ring.and (six8 i) (three8 i)) states (fun r st' =>
    IsBShare r 2#8 ∧ Corr .direct st') := (C42_and isBShare_six8 isBShare_three8 corr_states).1

/-! ## C43 -/

/-- C43: `a2b`. -/
theorem C43_a2b {d : Nat} (hd : k = 2 ^ d) {a : PartyID → Share (BitVec k)} {x : BitVec k}
    (ha : IsShare a x) (hst : Corr t st) :
    Ensures (M := M) (fun i => Ring.a2b (a i)) st (fun r st' => IsBShare r x ∧ Corr t st') :=
  (Ring.spec_a2b hd ha hst).ensures

example : Ensures (M := Msg) (fun i => Ring.a2b (x200 i)) states (fun r st' =>
    IsBShare r 200#8 ∧ Corr .direct st') := C43_a2b (d := 3) rfl isShare_x200 corr_states
example : Ensures (M := Msg) (fun i => Ring.a2b (bit1 i)) states (fun r st' =>
    IsBShare r 1#1 ∧ Corr .direct st') := C43_a2b (d := 0) rfl isShare_bit1 corr_states

/-- C43: `a2b` on vectors. -/
theorem C43_a2b_many {d : Nat} (hd : k = 2 ^ d) {a : PartyID → List (Share (BitVec k))}
    {x : List (BitVec k)} (ha : IsShares a x) (hst : Corr t st) :
    Ensures (M := M) (fun i => Ring.a2bMany (a i)) st (fun r st' => IsBShares r x ∧ Corr t st') :=
  (Ring.spec_a2bMany hd ha hst).ensures

example : Ensures (M := Msg) (fun i => Ring.a2bMany [x200 i, x3 i]) states (fun r st' =>
    IsBShares r [200#8, 3#8] ∧ Corr .direct st') := C43_a2b_many (d := 3) rfl isShares_200_3 corr_states

/-- C43: `b2a`. -/
theorem C43_b2a {d : Nat} (hd : k = 2 ^ d) {a : PartyID → Share (BitVec k)} {x : BitVec k}
    (ha : IsBShare a x) (hst : Corr t st) :
    Ensures (M := M) (fun i => Ring.b2a (a i)) st (fun r st' => IsShare r x ∧ Corr t st') :=
  (Ring.spec_b2a hd ha hst).ensures

example : Ensures (M := Msg) (fun i => Ring.b2a (six8 i)) states (fun r st' =>
    IsShare r 6#8 ∧ Corr .direct st') := C43_b2a (d := 3) rfl isBShare_six8 corr_states

/-- C43: `b2a` on vectors. -/
theorem C43_b2a_many {d : Nat} (hd : k = 2 ^ d) {a : PartyID → List (Share (BitVec k))}
    {x : List (BitVec k)} (ha : IsBShares a x) (hst : Corr t st) :
    Ensures (M := M) (fun i => Ring.b2aMany (a i)) st (fun r st' => IsShares r x ∧ Corr t st') :=
  (Ring.spec_b2aMany hd ha hst).ensures

example : Ensures (M := Msg) (fun i => Ring.b2aMany [six8 i, three8 i]) states (fun r st' =>
    IsShares r [6#8, 3#8] ∧ Corr .direct st') := C43_b2a_many (d := 3) rfl isBShares_63 corr_states

/-- C43: the two conversions are inverse to each other. -/
theorem C43_roundtrip {d : Nat} (hd : k = 2 ^ d) {a b : PartyID → Share (BitVec k)} {x y : BitVec k}
    (ha : IsShare a x) (hb : IsBShare b y) (hst : Corr t st) :
    Ensures (M := M) (fun i => Ring.a2b (a i) >>= fun r => Ring.b2a r) st (fun r st' =>
      IsShare r x ∧ Corr t st') ∧
    Ensures (M := M) (fun i => Ring.b2a (b i) >>= fun r => Ring.a2b r) st (fun r st' =>
      IsBShare r y ∧ Corr t st') :=
  ⟨(Spec.bind (Ring.spec_a2b hd ha hst) fun _ _ h => Ring.spec_b2a hd h.1 h.2).ensures,
    (Spec.bind (Ring.spec_b2a hd hb hst) fun _ _ h => Ring.spec_a2b hd h.1 h.2).ensures⟩

/-- C43: the conversions chosen by the state's setting. -/
theorem C43_selectors [Yao.YaoRng R] [Yao.YaoNet M] {d : Nat} (hd : k = 2 ^ d)
    (hH : t = .yao → Yao.HashSeparates (Yao.YaoNet.hash M)) {a b : PartyID → Share (BitVec k)} {x y : BitVec k}
    (ha : IsShare a x) (hb : IsBShare b y) (hst : Corr t st) :
    Ensures (M := M) (fun i => Ring.a2bSelector (a i)) st (fun r st' =>
      IsBShare r x ∧ Corr t st') ∧
    Ensures (M := M) (fun i => Ring.b2aSelector (b i)) st (fun r st' =>
      IsShare r y ∧ Corr t st') :=
  ⟨(Ring.spec_a2bSelector hd ha hst).ensures, (Ring.spec_b2aSelector hd hH hb hst).ensures⟩

example (t : A2BType) : Ensures (M := Msg) (fun i => Ring.b2aSelector (six8 i)) (statesOf t) (fun r st' =>
    IsShare r 6#8 ∧ Corr t st') :=
  (C43_selectors (d := 3) rfl (fun _ => demo_hash) isShare_x3 isBShare_six8 (corr_statesOf t)).2

/-- C43: bit injection from XOR shares of a bit held in the ring. -/
theorem C43_bit_inject {a : PartyID → Share (BitVec k)} {b : Bool} (ha : IsBitShare a b)
    (hst : Corr t st) :
    Ensures (M := M) (fun i => Ring.bitInject (a i)) st (fun r st' =>
      IsShare r (if b then 1#k else 0#k) ∧ Corr t st') :=
  (Ring.spec_bitInject ha hst).ensures

example : Ensures (M := Msg) (fun i => Ring.bitInject (true8 i)) states (fun r st' =>
    IsShare r 1#8 ∧ Corr .direct st') := C43_bit_inject isBitShare_true8 corr_states

/-- C43: the vector form. -/
theorem C43_bit_inject_many {a : PartyID → List (Share (BitVec k))} {b : List Bool} (ha : IsBitShares a b)
    (hst : Corr t st) :
    Ensures (M := M) (fun i => Ring.bitInjectMany (a i)) st (fun r st' =>
      IsShares r (b.map fun b => if b then 1#k else 0#k) ∧ Corr t st') :=
  (Ring.spec_bitInjectMany ha hst).ensures

/-- C43: bit injection from the one-bit ring. -/
theorem C43_inject_from_bit {a : PartyID → Share (BitVec 1)} {x : BitVec 1} (ha : IsBShare a x)
    (hst : Corr t st) :
    Ensures (M := M) (fun i => Ring.bitInjectFromBit (k := k) (a i)) st (fun r st' =>
      IsShare r (if x = 1#1 then 1#k else 0#k) ∧ Corr t st') :=
  (Ring.spec_bitInjectFromBit ha hst).ensures

example : Ensures (M := Msg) (fun i => Ring.bitInjectFromBit (k := 8) (bit1 i)) states (fun r st' =>
    IsShare r 1#8 ∧ Corr .direct st') := C43_inject_from_bit isBShare_bit1 corr_states

/-- C43: the vector form. -/
theorem C43_inject_from_bits {a : PartyID → List (Share (BitVec 1))} {x : List (BitVec 1)}
    (ha : IsBShares a x) (hst : Corr t st) :
    Ensures (M := M) (fun i => Ring.bitInjectFromBitsMany (k := k) (a i)) st (fun r st' =>
      IsShares r (x.map fun v => if v = 1#1 then 1#k else 0#k) ∧ Corr t st') :=
  (Ring.spec_fromBitsMany ha hst).ensures

example : Ensures (M := Msg) (fun i => Ring.bitInjectFromBitsMany (k := 8) [bit1 i, bit0 i]) states
    (fun r st' => IsShares r [1#8, 0#8] ∧ Corr .direct st') := C43_inject_from_bits isBShares_bits corr_states

omit [Sample R (BitVec k)] [UintCodec M k] in
/-- C43: bits injected into a field. -/
theorem C43_inject_from_bits_field {p : Nat} [Sample R (ZMod p)] [Codec M (List (ZMod p))]
    {a : PartyID → List (Share (BitVec 1))} {x : List (BitVec 1)} (ha : IsBShares a x) (hst : Corr t st) :
    Ensures (M := M) (fun i => Ring.bitInjectFromBitsToFieldMany (p := p) (a i)) st (fun r st' =>
      IsShares r (x.map fun v => if v = 1#1 then (1 : ZMod p) else 0) ∧ Corr t st') :=
  (Ring.spec_fromBitsMany ha hst).ensures

example : Ensures (M := Msg) (fun i => Ring.bitInjectFromBitsToFieldMany (p := 7) [bit1 i, bit0 i]) states
    (fun r st' => IsShares r [(1 : F7), 0] ∧ Corr .direct st') :=
  C43_inject_from_bits_field isBShares_bits corr_states

/-- The shared result of a comparison: a one-bit sharing of the truth value. -/
def IsResult (r : PartyID → Share (BitVec 1)) (b : Bool) : Prop :=
  IsBShare r (if b then 1#1 else 0#1)

theorem isResult_of {r : PartyID → Share (BitVec 1)} {b : Bool} (h : IsBShare r (BitVec.ofBool b)) :
    IsResult r b := by
  cases b <;> exact h

/-- C43: the comparisons of two shared values are those of the unsigned integers. -/
theorem C43_compare [Yao.YaoRng R] [Yao.YaoNet M] {d : Nat} (hd : k = 2 ^ d) {a b : PartyID → Share (BitVec k)} {x y : BitVec k}
    (ha : IsShare a x) (hb : IsShare b y) (hst : Corr t st) :
    Ensures (M := M) (fun i => Ring.lt (a i) (b i)) st (fun r st' =>
      IsResult r (decide (x.toNat < y.toNat)) ∧ Corr t st') ∧
    Ensures (M := M) (fun i => Ring.le (a i) (b i)) st (fun r st' =>
      IsResult r (decide (x.toNat ≤ y.toNat)) ∧ Corr t st') ∧
    Ensures (M := M) (fun i => Ring.gt (a i) (b i)) st (fun r st' =>
      IsResult r (decide (y.toNat < x.toNat)) ∧ Corr t st') ∧
    Ensures (M := M) (fun i => Ring.ge (a i) (b i)) st (fun r st' =>
      IsResult r (decide (y.toNat ≤ x.toNat)) ∧ Corr t st') ∧
    Ensures (M := M) (fun i => Ring.eq (a i) (b i)) st (fun r st' =>
      IsResult r (decide (x.toNat = y.toNat)) ∧ Corr t st') ∧
    Ensures (M := M) (fun i => Ring.neq (a i) (b i)) st (fun r st' =>
      IsResult r (decide (x.toNat ≠ y.toNat)) ∧ Corr t st') := by
  simp only [ne_eq, BitVec.toNat_inj]
  exact ⟨((Ring.spec_lt hd ha hb hst).mono fun _ _ h => ⟨isResult_of h.1, h.2⟩).ensures,
    ((Ring.spec_ge hd hb ha hst).mono fun _ _ h => ⟨isResult_of h.1, h.2⟩).ensures,
    ((Ring.spec_gt hd ha hb hst).mono fun _ _ h => ⟨isResult_of h.1, h.2⟩).ensures,
    ((Ring.spec_ge hd ha hb hst).mono fun _ _ h => ⟨isResult_of h.1, h.2⟩).ensures,
    ((Ring.spec_eq hd ha hb hst).mono fun _ _ h => ⟨isResult_of h.1, h.2⟩).ensures,
    ((Ring.spec_neq hd ha hb hst).mono fun _ _ h => ⟨isResult_of h.1, h.2⟩).ensures⟩

example (t : A2BType) : Ensures (M := Msg) (fun i => Ring.lt (x200 i) (x3 i)) (statesOf t) (fun r st' =>
    IsResult r false ∧ Corr t st') := (C43_compare (d := 3) rfl isShare_x200 isShare_x3 (corr_statesOf t)).1
example : Ensures (M := Msg) (fun i => Ring.lt (bit0 i) (bit1 i)) states (fun r st' =>
    IsResult r true ∧ Corr .direct st') := (C43_compare (d := 0) rfl isShare_bit0 isShare_bit1 corr_states).1

/-- C43: comparisons with a public value. -/
theorem C43_compare_public [Yao.YaoRng R] [Yao.YaoNet M] {d : Nat} (hd : k = 2 ^ d) {a : PartyID → Share (BitVec k)} {x : BitVec k}
    (y : BitVec k) (ha : IsShare a x) (hst : Corr t st) :
    Ensures (M := M) (fun i => Ring.ltPublic (a i) y) st (fun r st' =>
      IsResult r (decide (x.toNat < y.toNat)) ∧ Corr t st') ∧
    Ensures (M := M) (fun i => Ring.lePublic (a i) y) st (fun r st' =>
      IsResult r (decide (x.toNat ≤ y.toNat)) ∧ Corr t st') ∧
    Ensures (M := M) (fun i => Ring.gtPublic (a i) y) st (fun r st' =>
      IsResult r (decide (y.toNat < x.toNat)) ∧ Corr t st') ∧
    Ensures (M := M) (fun i => Ring.gePublic (a i) y) st (fun r st' =>
      IsResult r (decide (y.toNat ≤ x.toNat)) ∧ Corr t st') ∧
    Ensures (M := M) (fun i => Ring.eqPublic (a i) y) st (fun r st' =>
      IsResult r (decide (x.toNat = y.toNat)) ∧ Corr t st') ∧
    Ensures (M := M) (fun i => Ring.neqPublic (a i) y) st (fun r st' =>
      IsResult r (decide (x.toNat ≠ y.toNat)) ∧ Corr t st') := by
  simp only [ne_eq, BitVec.toNat_inj]
  exact ⟨((Ring.spec_ltPublic hd y ha hst).mono fun _ _ h => ⟨isResult_of h.1, h.2⟩).ensures,
    ((Ring.spec_unsignedGeConstLhs hd y ha hst).mono fun _ _ h => ⟨isResult_of h.1, h.2⟩).ensures,
    ((Ring.spec_gtPublic hd y ha hst).mono fun _ _ h => ⟨isResult_of h.1, h.2⟩).ensures,
    ((Ring.spec_gePublic hd y ha hst).mono fun _ _ h => ⟨isResult_of h.1, h.2⟩).ensures,
    ((Ring.spec_eqPublic hd y ha hst).mono fun _ _ h => ⟨isResult_of h.1, h.2⟩).ensures,
    ((Ring.spec_neqPublic hd y ha hst).mono fun _ _ h => ⟨isResult_of h.1, h.2⟩).ensures⟩

example : Ensures (M := Msg) (fun i => Ring.gePublic (x3 i) 0#8) states (fun r st' =>
    IsResult r true ∧ Corr .direct st') :=
  (C43_compare_public (d := 3) rfl 0#8 isShare_x3 corr_states).2.2.2.1

/-- C43: the opened zero test. -/
theorem C43_is_zero [Yao.YaoRng R] [Yao.YaoNet M] [Sample R (BitVec 1)] [UintCodec M 1] {d : Nat} (hd : k = 2 ^ d)
    {a : PartyID → Share (BitVec k)} {x : BitVec k} (ha : IsShare a x) (hst : Corr t st) :
    Ensures (M := M) (fun i => Ring.isZero (a i)) st (fun r st' =>
      (r = fun _ => decide (x.toNat = 0)) ∧ Corr t st') := by
  have e : decide (x.toNat = 0) = decide (x = 0#k) := by
    congr 1
    rw [eq_iff_iff]
    exact ⟨fun h => BitVec.eq_of_toNat_eq (by simpa using h), fun h => by simp [h]⟩
  rw [e]
  exact (Ring.spec_isZero hd ha hst).ensures

example : Ensures (M := Msg) (fun i => Ring.isZero (x3 i)) states (fun r st' =>
    (r = fun _ => false) ∧ Corr .direct st') := C43_is_zero (d := 3) rfl isShare_x3 corr_states

end Ops

/-! ## C44 -/

/-- C44: downcast, a local operation; it panics when the target is wider. -/
theorem C44_downcast {a : PartyID → Share (BitVec k)} {x : BitVec k} (ha : IsShare a x) :
    (l ≤ k → ∃ r, (∀ i, Ring.downcast (l := l) (a i) = some (r i)) ∧
      IsShare r (BitVec.ofNat l x.toNat)) ∧
    (k < l → ∀ i, Ring.downcast (l := l) (a i) = none) := by
  constructor
  · intro h
    refine ⟨fun i => (a i).castTo l, fun i => by simp [Ring.downcast, h], ?_⟩
    have := ha.castTo h
    rwa [show x.setWidth l = BitVec.ofNat l x.toNat from
      BitVec.eq_of_toNat_eq (by simp)] at this
  · intro h i
    simp [Ring.downcast, Nat.not_le.2 h]

example : ∃ r, (∀ i, Ring.downcast (l := 4) (x200 i) = some (r i)) ∧ IsShare r 8#4 :=
  (C44_downcast isShare_x200).1 (by decide)

section Casts

variable [Sample R (BitVec k)] [UintCodec M k] [Sample R (BitVec l)] [UintCodec M l]

/-- C44: upcast keeps the integer. -/
theorem C44_upcast {d e : Nat} (hd : k = 2 ^ d) (he : l = 2 ^ e) (hkl : k < l)
    {a : PartyID → Share (BitVec k)} {x : BitVec k} (ha : IsShare a x) (hst : Corr t st) :
    Ensures (M := M) (fun i => Ring.upcastA2B (l := l) (a i)) st (fun r st' =>
      (∃ v : BitVec l, IsShare r v ∧ v.toNat = x.toNat) ∧ Corr t st') :=
  ((Ring.spec_upcastA2B hd he hkl ha hst).mono fun _ _ h => ⟨⟨_, h.1, by
    rw [BitVec.toNat_setWidth]
    exact Nat.mod_eq_of_lt (lt_of_lt_of_le x.isLt (Nat.pow_le_pow_right (by decide) (by omega)))⟩,
    h.2⟩).ensures

example : Ensures (M := Msg) (fun i => Ring.upcastA2B (l := 16) (x200 i)) states (fun r st' =>
    (∃ v : BitVec 16, IsShare r v ∧ v.toNat = 200) ∧ Corr .direct st') :=
  C44_upcast (d := 3) (e := 4) rfl rfl (by decide) isShare_x200 corr_states
example : Ensures (M := Msg) (fun i => Ring.upcastA2B (l := 16) (bit1 i)) states (fun r st' =>
    (∃ v : BitVec 16, IsShare r v ∧ v.toNat = 1) ∧ Corr .direct st') :=
  C44_upcast (d := 0) (e := 4) rfl rfl (by decide) isShare_bit1 corr_states

/-- C44: the general cast reduces the integer modulo the target's modulus. -/
theorem C44_cast [Yao.YaoRng R] [Yao.YaoNet M] {d e : Nat} (hd : k = 2 ^ d) (he : l = 2 ^ e)
    (hH : t = .yao → Yao.HashSeparates (Yao.YaoNet.hash M))
    {a : PartyID → Share (BitVec k)} {x : BitVec k} (ha : IsShare a x) (hst : Corr t st) :
    Ensures (M := M) (fun i => Ring.castA2B (l := l) (a i)) st (fun r st' =>
      IsShare r (BitVec.ofNat l x.toNat) ∧ Corr t st') ∧
    Ensures (M := M) (fun i => Ring.ringCastSelector (l := l) (a i)) st (fun r st' =>
      IsShare r (BitVec.ofNat l x.toNat) ∧ Corr t st') := by
  have e1 : BitVec.ofNat l x.toNat = x.setWidth l := BitVec.eq_of_toNat_eq (by simp)
  rw [e1]
  exact ⟨(Ring.spec_castA2B hd he ha hst).ensures, (Ring.spec_ringCastSelector hd he hH ha hst).ensures⟩

variable {w p : Nat} [Sample R (BitVec w)] [UintCodec M w]

/-- C44: field to ring reduces the canonical representative modulo `2^k`. -/
theorem C44_field_to_ring [NeZero p] {d : Nat} (hd : k = 2 ^ d) (hw : modBits p + 2 ≤ w)
    {a : PartyID → Share (ZMod p)} {x : ZMod p} (ha : IsShare a x) (hst : Corr t st) :
    Ensures (M := M) (fun i => Ring.fieldToRingA2B (k := k) w (a i)) st (fun r st' =>
      IsShare r (BitVec.ofNat k x.val) ∧ Corr t st') :=
  (Ring.spec_fieldToRingA2B hd hw ha hst).ensures

example : Ensures (M := Msg) (fun i => Ring.fieldToRingA2B (k := 2) 8 (five7 i)) states (fun r st' =>
    IsShare r 1#2 ∧ Corr .direct st') :=
  C44_field_to_ring (d := 1) rfl (by decide) isShare_five7 corr_states

/-- C44: the vector form. -/
theorem C44_field_to_ring_many [NeZero p] {d : Nat} (hd : k = 2 ^ d) (hw : modBits p + 2 ≤ w)
    {a : PartyID → List (Share (ZMod p))} {x : List (ZMod p)} (ha : IsShares a x) (hst : Corr t st) :
    Ensures (M := M) (fun i => Ring.fieldToRingA2BMany (k := k) w (a i)) st (fun r st' =>
      IsShares r (x.map fun v => BitVec.ofNat k v.val) ∧ Corr t st') :=
  (Ring.spec_fieldToRingA2BMany hd hw ha hst).ensures

example : Ensures (M := Msg) (fun i => Ring.fieldToRingA2BMany (k := 2) 8 [three7 i, five7 i]) states
    (fun r st' => IsShares r [3#2, 1#2] ∧ Corr .direct st') :=
  C44_field_to_ring_many (d := 1) rfl (by decide) isShares_35 corr_states

variable [Sample R (ZMod p)] [Codec M (List (ZMod p))]

/-- C44: ring to field keeps an integer below the modulus. -/
theorem C44_ring_to_field [NeZero p] {d : Nat} (hd : k = 2 ^ d) (hw : modBits p + 2 ≤ w)
    {a : PartyID → Share (BitVec k)} {x : BitVec k} (ha : IsShare a x) (hx : x.toNat < p)
    (hst : Corr t st) :
    Ensures (M := M) (fun i => Ring.ringToFieldA2B w (a i)) st (fun r st' =>
      IsShare r (x.toNat : ZMod p) ∧ Corr t st') :=
  (Ring.spec_ringToFieldA2B hd hw ha hx hst).ensures

example : Ensures (M := Msg) (fun i => Ring.ringToFieldA2B (p := 7) 8 (x3 i)) states (fun r st' =>
    IsShare r (3 : F7) ∧ Corr .direct st') :=
  C44_ring_to_field (d := 3) rfl (by decide) isShare_x3 (by decide) corr_states
example : Ensures (M := Msg) (fun i => Ring.ringToFieldA2B (p := 7) 8 (bit1 i)) states (fun r st' =>
    IsShare r ((1#1).toNat : F7) ∧ Corr .direct st') :=
  C44_ring_to_field (d := 0) rfl (by decide) isShare_bit1 (by decide) corr_states

/-- C44: in particular, every element of a ring smaller than the field. -/
theorem C44_ring_to_field_small [NeZero p] {d : Nat} (hd : k = 2 ^ d) (hw : modBits p + 2 ≤ w)
    (hk : k < modBits p) {a : PartyID → Share (BitVec k)} {x : BitVec k} (ha : IsShare a x)
    (hst : Corr t st) :
    Ensures (M := M) (fun i => Ring.ringToFieldA2B w (a i)) st (fun r st' =>
      IsShare r (x.toNat : ZMod p) ∧ Corr t st') :=
  C44_ring_to_field hd hw ha (lt_of_lt_of_le x.isLt (Nat.lt_size.1 hk)) hst

/-- C44: the vector form. -/
theorem C44_ring_to_field_many [NeZero p] {d : Nat} (hd : k = 2 ^ d) (hw : modBits p + 2 ≤ w)
    {a : PartyID → List (Share (BitVec k))} {x : List (BitVec k)} (ha : IsShares a x)
    (hx : ∀ v ∈ x, v.toNat < p) (hst : Corr t st) :
    Ensures (M := M) (fun i => Ring.ringToFieldA2BMany w (a i)) st (fun r st' =>
      IsShares r (x.map fun v => (v.toNat : ZMod p)) ∧ Corr t st') :=
  (Ring.spec_ringToFieldA2BMany hd hw ha hx hst).ensures

example : Ensures (M := Msg) (fun i => Ring.ringToFieldA2BMany (p := 7) 8 [bit1 i, bit0 i]) states
    (fun r st' => IsShares r [((1#1).toNat : F7), ((0#1).toNat : F7)] ∧ Corr .direct st') :=
  C44_ring_to_field_many (d := 0) rfl (by decide) isShares_bits (by decide) corr_states

/-- C44: a ring wider than the field's integer type: the low `modBits p` bits are kept, when they are
below the modulus. -/
theorem C44_big_ring_to_field [NeZero p] {d : Nat} (hd : k = 2 ^ d) (hw : modBits p + 2 ≤ w)
    {a : PartyID → Share (BitVec k)} {x : BitVec k} (ha : IsShare a x)
    (hx : x.toNat % 2 ^ modBits p < p) (hst : Corr t st) :
    Ensures (M := M) (fun i => Ring.ringToFieldA2BBigRing w (a i)) st (fun r st' =>
      IsShare r ((x.toNat % 2 ^ modBits p : ℕ) : ZMod p) ∧ Corr t st') :=
  (Ring.spec_ringToFieldA2BBigRing hd hw ha hx hst).ensures

example : Ensures (M := Msg) (fun i => Ring.ringToFieldA2BBigRing (p := 7) 8 (x3 i)) states (fun r st' =>
    IsShare r ((3 : ℕ) : F7) ∧ Corr .direct st') :=
  C44_big_ring_to_field (d := 3) rfl (by decide) isShare_x3 (by decide) corr_states

/-- C44: the vector form. -/
theorem C44_big_ring_to_field_many [NeZero p] {d : Nat} (hd : k = 2 ^ d) (hw : modBits p + 2 ≤ w)
    {a : PartyID → List (Share (BitVec k))} {x : List (BitVec k)} (ha : IsShares a x)
    (hx : ∀ v ∈ x, v.toNat % 2 ^ modBits p < p) (hst : Corr t st) :
    Ensures (M := M) (fun i => Ring.ringToFieldA2BBigRingMany w (a i)) st (fun r st' =>
      IsShares r (x.map fun v => ((v.toNat % 2 ^ modBits p : ℕ) : ZMod p)) ∧ Corr t st') :=
  (Ring.spec_ringToFieldA2BBigRingMany hd hw ha hx hst).ensures

/-- C44: the casts chosen by the state's setting.  With garbled circuits the modulus must be odd, and the circuits
need a ring no wider than the modulus. -/
theorem C44_selectors [NeZero p] [Yao.YaoRng R] [Yao.YaoNet M] {d : Nat} (hd : k = 2 ^ d) (hw : modBits p + 2 ≤ w)
    (ho : t = .yao → p % 2 = 1) (hk : t = .yao → k ≤ modBits p)
    (hH : t = .yao → Yao.HashSeparates (Yao.YaoNet.hash M))
    {a : PartyID → Share (BitVec k)} {x : BitVec k} (ha : IsShare a x) (hx : x.toNat < p)
    {b : PartyID → Share (ZMod p)} {y : ZMod p} (hb : IsShare b y) (hst : Corr t st) :
    Ensures (M := M) (fun i => Ring.ringToFieldSelector w (a i)) st (fun r st' =>
      IsShare r (x.toNat : ZMod p) ∧ Corr t st') ∧
    Ensures (M := M) (fun i => Ring.fieldToRingSelector (k := k) w (b i)) st (fun r st' =>
      IsShare r (BitVec.ofNat k y.val) ∧ Corr t st') :=
  ⟨(Ring.spec_ringToFieldSelector hd hw (fun h => ⟨ho h, hk h⟩) hH ha hx hst).ensures,
    (Ring.spec_fieldToRingSelector hd hw (fun h => ⟨ho h, hk h⟩) hH hb hst).ensures⟩

example (t : A2BType) : Ensures (M := Msg) (fun i => Ring.fieldToRingSelector (k := 1) 8 (five7 i)) (statesOf t)
    (fun r st' => IsShare r 1#1 ∧ Corr t st') :=
  (C44_selectors (d := 0) (p := 7) rfl (by decide) (fun _ => rfl) (fun _ => by decide) (fun _ => demo_hash)
    isShare_bit1 (by decide) isShare_five7 (corr_statesOf t)).2

end Casts

end Verif.Props
