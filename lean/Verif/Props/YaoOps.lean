import Verif.Yao.BlueprintOps
import Verif.Spec.Digits
import Verif.Props.Ring

/-!
# C66-C70: integer arithmetic through garbled circuits

Field elements are read as their canonical representatives `v.val` below `p`, ring elements as unsigned numbers.
`AreDigits b n x qs`: `qs` are the `n` digits of `x` in base `b` (`Verif/Spec/Digits.lean`).
-/

namespace Verif.Props

open Verif.Rep3 Verif.Yao PartyID Demo RingDemo

variable {R M : Type} {w p k : Nat} {t : A2BType} [YaoRng R] [YaoNet M] {st : PartyID → Rep3State R}

theorem areDigits_limbs (n t x : Nat) : AreDigits (2 ^ n) t (x % 2 ^ (n * t)) (limbs n t x) := by
  refine ⟨by simp [limbs], ?_, ?_⟩
  · intro q hq
    simp only [limbs, List.mem_map] at hq
    obtain ⟨i, -, rfl⟩ := hq
    exact Nat.mod_lt _ (Nat.two_pow_pos n)
  · induction t generalizing x with
    | zero => simp [limbs, ofDigits, Nat.mod_one]
    | succ t ih =>
      have e : limbs n (t + 1) x = x % 2 ^ n :: limbs n t (x / 2 ^ n) := by
        simp only [limbs, List.range_succ_eq_map, List.map_cons, List.map_map, Nat.mul_zero, pow_zero, Nat.div_one,
          List.cons.injEq, true_and]
        refine List.map_congr_left fun i _ => ?_
        simp only [Function.comp_def, Nat.div_div_eq_div_mul, ← Nat.pow_add]
        rw [Nat.mul_succ, Nat.add_comm (n * i)]
      rw [e, ofDigits, ih, Nat.mul_add, Nat.mul_one, Nat.add_comm (n * t) n, Nat.pow_add]
      exact (Nat.mod_mul).symm

theorem areDigits_limbs' {n t x : Nat} (h : x < 2 ^ (n * t)) : AreDigits (2 ^ n) t x (limbs n t x) := by
  have := areDigits_limbs n t x
  rwa [Nat.mod_eq_of_lt h] at this

theorem le_mul_ceil {total size : Nat} (hs : 0 < size) : total ≤ size * ((total + size - 1) / size) := by
  have := Nat.div_add_mod (total + size - 1) size
  have := Nat.mod_lt (total + size - 1) hs
  omega

section Field

variable [NeZero p] [Sample R (ZMod p)]

/-! ## C66: integer division of field elements -/

/-- C66: the quotient of the representatives of two shared elements. -/
theorem C66_div (hp : p % 2 = 1) (hw : modBits p ≤ w) (hH : HashSeparates (YaoNet.hash M))
    {a b : PartyID → Share (ZMod p)} {x y : ZMod p} (ha : IsShare a x) (hb : IsShare b y) (h0 : y ≠ 0)
    (hst : Corr t st) :
    Ensures (M := M) (fun i => fieldIntDiv w (a i) (b i)) st (fun r st' =>
      IsShare r ((x.val / y.val : Nat) : ZMod p) ∧ Corr t st') :=
  (Gc.spec_fieldIntDiv hp hw hH ha hb h0 hst).ensures

/-- C66: vectors are divided element by element. -/
theorem C66_div_many (hp : p % 2 = 1) (hw : modBits p ≤ w) (hH : HashSeparates (YaoNet.hash M))
    {a b : PartyID → List (Share (ZMod p))} {x y : List (ZMod p)} (ha : IsShares a x) (hb : IsShares b y)
    (hl : y.length = x.length) (h0 : ∀ u ∈ y, u ≠ 0) (hst : Corr t st) :
    Ensures (M := M) (fun i => fieldIntDivMany w (a i) (b i)) st (fun r st' =>
      IsShares r (List.zipWith (fun x y => ((x.val / y.val : Nat) : ZMod p)) x y) ∧ Corr t st') :=
  (Gc.spec_fieldIntDivMany hp hw hH ha hb hl h0 hst).ensures

/-- C66: a public divisor. -/
theorem C66_div_by_public (hp : p % 2 = 1) (hw : modBits p ≤ w) (hH : HashSeparates (YaoNet.hash M))
    {a : PartyID → Share (ZMod p)} {x y : ZMod p} (ha : IsShare a x) (h0 : y ≠ 0) (hst : Corr t st) :
    Ensures (M := M) (fun i => fieldIntDivByPublic w (a i) y) st (fun r st' =>
      IsShare r ((x.val / y.val : Nat) : ZMod p) ∧ Corr t st') :=
  (Gc.spec_fieldIntDivByPublic hp hw hH ha h0 hst).ensures

/-- C66: public divisors, vectors. -/
theorem C66_div_by_public_many (hp : p % 2 = 1) (hw : modBits p ≤ w) (hH : HashSeparates (YaoNet.hash M))
    {a : PartyID → List (Share (ZMod p))} {x y : List (ZMod p)} (ha : IsShares a x)
    (hl : y.length = x.length) (h0 : ∀ u ∈ y, u ≠ 0) (hst : Corr t st) :
    Ensures (M := M) (fun i => fieldIntDivByPublicMany w (a i) y) st (fun r st' =>
      IsShares r (List.zipWith (fun x y => ((x.val / y.val : Nat) : ZMod p)) x y) ∧ Corr t st') :=
  (Gc.spec_fieldIntDivByPublicMany hp hw hH ha hl h0 hst).ensures

/-- C66: a public dividend. -/
theorem C66_div_by_shared (hp : p % 2 = 1) (hw : modBits p ≤ w) (hH : HashSeparates (YaoNet.hash M))
    {b : PartyID → Share (ZMod p)} {x y : ZMod p} (hb : IsShare b y) (h0 : y ≠ 0) (hst : Corr t st) :
    Ensures (M := M) (fun i => fieldIntDivByShared w x (b i)) st (fun r st' =>
      IsShare r ((x.val / y.val : Nat) : ZMod p) ∧ Corr t st') :=
  (Gc.spec_fieldIntDivByShared hp hw hH hb h0 hst).ensures

/-- C66: public dividends, vectors. -/
theorem C66_div_by_shared_many (hp : p % 2 = 1) (hw : modBits p ≤ w) (hH : HashSeparates (YaoNet.hash M))
    {b : PartyID → List (Share (ZMod p))} {x y : List (ZMod p)} (hb : IsShares b y)
    (hl : x.length = y.length) (h0 : ∀ u ∈ y, u ≠ 0) (hst : Corr t st) :
    Ensures (M := M) (fun i => fieldIntDivBySharedMany w x (b i)) st (fun r st' =>
      IsShares r (List.zipWith (fun x y => ((x.val / y.val : Nat) : ZMod p)) x y) ∧ Corr t st') :=
  (Gc.spec_fieldIntDivBySharedMany hp hw hH hb hl h0 hst).ensures

/-- C66: a power of two as the divisor, of any size. -/
theorem C66_div_power_2 (hp : p % 2 = 1) (hw : modBits p ≤ w) (hH : HashSeparates (YaoNet.hash M))
    {a : PartyID → Share (ZMod p)} {x : ZMod p} (ha : IsShare a x) (s : Nat) (hst : Corr t st) :
    Ensures (M := M) (fun i => fieldIntDivPower2 w (a i) s) st (fun r st' =>
      IsShare r ((x.val / 2 ^ s : Nat) : ZMod p) ∧ Corr t st') :=
  (Gc.spec_fieldIntDivPower2 hp hw hH ha s hst).ensures

/-- C66: a power of two as the divisor, vectors. -/
theorem C66_div_power_2_many (hp : p % 2 = 1) (hw : modBits p ≤ w) (hH : HashSeparates (YaoNet.hash M))
    {a : PartyID → List (Share (ZMod p))} {x : List (ZMod p)} (ha : IsShares a x) (s : Nat) (hst : Corr t st) :
    Ensures (M := M) (fun i => fieldIntDivPower2Many w (a i) s) st (fun r st' =>
      IsShares r (x.map fun x => ((x.val / 2 ^ s : Nat) : ZMod p)) ∧ Corr t st') :=
  (Gc.spec_fieldIntDivPower2Many hp hw hH ha s hst).ensures

example (t : A2BType) : Ensures (M := Msg) (fun i => fieldIntDiv 8 (five7 i) (three7 i)) (statesOf t)
    (fun r st' => IsShare r ((5 / 3 : Nat) : F7) ∧ Corr t st') :=
  C66_div (by decide) (by decide) demo_hash isShare_five7 isShare_three7 (by decide) (corr_statesOf t)

example (t : A2BType) : Ensures (M := Msg) (fun i => fieldIntDivMany 8 [three7 i, five7 i] [five7 i, one7 i])
    (statesOf t) (fun r st' => IsShares r [((3 / 5 : Nat) : F7), ((5 / 1 : Nat) : F7)] ∧ Corr t st') :=
  C66_div_many (by decide) (by decide) demo_hash isShares_35 isShares_51 rfl (by decide) (corr_statesOf t)

example (t : A2BType) : Ensures (M := Msg) (fun i => fieldIntDivByPublic 8 (five7 i) 2) (statesOf t)
    (fun r st' => IsShare r ((5 / 2 : Nat) : F7) ∧ Corr t st') :=
  C66_div_by_public (by decide) (by decide) demo_hash isShare_five7 (y := 2) (by decide) (corr_statesOf t)

example (t : A2BType) : Ensures (M := Msg) (fun i => fieldIntDivByPublicMany 8 [three7 i, five7 i] [2, 3])
    (statesOf t) (fun r st' => IsShares r [((3 / 2 : Nat) : F7), ((5 / 3 : Nat) : F7)] ∧ Corr t st') :=
  C66_div_by_public_many (by decide) (by decide) demo_hash isShares_35 (y := [2, 3]) rfl (by decide)
    (corr_statesOf t)

example (t : A2BType) : Ensures (M := Msg) (fun i => fieldIntDivByShared 8 6 (three7 i)) (statesOf t)
    (fun r st' => IsShare r ((6 / 3 : Nat) : F7) ∧ Corr t st') :=
  C66_div_by_shared (by decide) (by decide) demo_hash (x := 6) isShare_three7 (by decide) (corr_statesOf t)

example (t : A2BType) : Ensures (M := Msg) (fun i => fieldIntDivBySharedMany 8 [6, 4] [five7 i, one7 i])
    (statesOf t) (fun r st' => IsShares r [((6 / 5 : Nat) : F7), ((4 / 1 : Nat) : F7)] ∧ Corr t st') :=
  C66_div_by_shared_many (by decide) (by decide) demo_hash (x := [6, 4]) isShares_51 rfl (by decide)
    (corr_statesOf t)

example (t : A2BType) : Ensures (M := Msg) (fun i => fieldIntDivPower2 8 (five7 i) 1) (statesOf t)
    (fun r st' => IsShare r ((5 / 2 ^ 1 : Nat) : F7) ∧ Corr t st') :=
  C66_div_power_2 (by decide) (by decide) demo_hash isShare_five7 1 (corr_statesOf t)

example (t : A2BType) : Ensures (M := Msg) (fun i => fieldIntDivPower2Many 8 [three7 i, five7 i] 1) (statesOf t)
    (fun r st' => IsShares r [((3 / 2 ^ 1 : Nat) : F7), ((5 / 2 ^ 1 : Nat) : F7)] ∧ Corr t st') :=
  C66_div_power_2_many (by decide) (by decide) demo_hash isShares_35 1 (corr_statesOf t)

/-! ## C67: pieces of field elements -/

/-- C67: the lowest `total` bits of a shared element, in pieces of `size` bits. -/
theorem C67_decompose (hp : p % 2 = 1) (hw : modBits p ≤ w) (hH : HashSeparates (YaoNet.hash M))
    {a : PartyID → Share (ZMod p)} {x : ZMod p} (ha : IsShare a x) {total size : Nat}
    (ht : 0 < total) (htp : total ≤ modBits p) (hs : 0 < size) (hst : Corr t st) :
    Ensures (M := M) (fun i => decomposeArithmetic w (a i) total size) st (fun r st' =>
      (∃ qs, AreDigits (2 ^ size) ((total + size - 1) / size) (x.val % 2 ^ total) qs ∧
        IsShares r (qs.map fun q : Nat => (q : ZMod p))) ∧ Corr t st') := by
  refine ((Gc.spec_decomposeArithmetic hp hw hH ha ht htp hs hst).mono fun _ _ h => ⟨⟨_, ?_, h.1⟩, h.2⟩).ensures
  exact areDigits_limbs' ((Nat.mod_lt _ (Nat.two_pow_pos _)).trans_le
    (Nat.pow_le_pow_right (by decide) (le_mul_ceil hs)))

/-- C67: vectors; the pieces of each element follow one another. -/
theorem C67_decompose_many (hp : p % 2 = 1) (hw : modBits p ≤ w) (hH : HashSeparates (YaoNet.hash M))
    {a : PartyID → List (Share (ZMod p))} {x : List (ZMod p)} (ha : IsShares a x) {total size : Nat}
    (ht : 0 < total) (htp : total ≤ modBits p) (hs : 0 < size) (hst : Corr t st) :
    Ensures (M := M) (fun i => decomposeArithmeticMany w (a i) total size) st (fun r st' =>
      (∃ qss, List.Forall₂ (fun x qs => AreDigits (2 ^ size) ((total + size - 1) / size) (ZMod.val x % 2 ^ total) qs)
          x qss ∧
        IsShares r (qss.flatten.map fun q : Nat => (q : ZMod p))) ∧ Corr t st') := by
  refine ((Gc.spec_decomposeArithmeticMany hp hw hH ha ht htp hs hst).mono fun _ _ h =>
    ⟨⟨x.map fun x => limbs size (Circ.divCeil total size) (x.val % 2 ^ total), ?_, ?_⟩, h.2⟩).ensures
  · rw [List.forall₂_map_right_iff, List.forall₂_same]
    intro x _
    exact areDigits_limbs' ((Nat.mod_lt _ (Nat.two_pow_pos _)).trans_le
      (Nat.pow_le_pow_right (by decide) (le_mul_ceil hs)))
  · have := h.1
    simp only [List.map_flatten, List.map_map, Function.comp_def]
    rw [List.flatMap_def] at this
    exact this

/-- C67: the remainder modulo a power of two. -/
theorem C67_mod_power_2 (hp : p % 2 = 1) (hw : modBits p ≤ w) (hH : HashSeparates (YaoNet.hash M))
    {a : PartyID → Share (ZMod p)} {x : ZMod p} (ha : IsShare a x) {n : Nat} (hn : 0 < n) (hnp : n ≤ modBits p)
    (hst : Corr t st) :
    Ensures (M := M) (fun i => fieldModPower2 w (a i) n) st (fun r st' =>
      IsShare r ((x.val % 2 ^ n : Nat) : ZMod p) ∧ Corr t st') :=
  (Gc.spec_fieldModPower2 hp hw hH ha hn hnp hst).ensures

/-- C67: the bits from `lo` up to `mid`, and from `mid` up to `bitsize`, of a shared element. -/
theorem C67_slice (hp : p % 2 = 1) (hw : modBits p ≤ w) (hH : HashSeparates (YaoNet.hash M))
    {a : PartyID → Share (ZMod p)} {x : ZMod p} (ha : IsShare a x) {lo mid bitsize : Nat}
    (h1 : lo ≤ mid) (h2 : mid ≤ bitsize) (h3 : bitsize ≤ modBits p) (hst : Corr t st) :
    Ensures (M := M) (fun i => sliceArithmetic w (a i) lo mid bitsize) st (fun r st' =>
      IsShares r [((x.val % 2 ^ mid / 2 ^ lo : Nat) : ZMod p), ((x.val % 2 ^ bitsize / 2 ^ mid : Nat) : ZMod p)] ∧
        Corr t st') :=
  (Gc.spec_sliceArithmetic hp hw hH ha h1 h2 h3 hst).ensures

/-- C67: vectors; the two slices of each element follow one another. -/
theorem C67_slice_many (hp : p % 2 = 1) (hw : modBits p ≤ w) (hH : HashSeparates (YaoNet.hash M))
    {a : PartyID → List (Share (ZMod p))} {x : List (ZMod p)} (ha : IsShares a x) {lo mid bitsize : Nat}
    (h1 : lo ≤ mid) (h2 : mid ≤ bitsize) (h3 : bitsize ≤ modBits p) (hst : Corr t st) :
    Ensures (M := M) (fun i => sliceArithmeticMany w (a i) lo mid bitsize) st (fun r st' =>
      IsShares r (x.flatMap fun x => [((x.val % 2 ^ mid / 2 ^ lo : Nat) : ZMod p),
        ((x.val % 2 ^ bitsize / 2 ^ mid : Nat) : ZMod p)]) ∧ Corr t st') :=
  (Gc.spec_sliceArithmeticMany hp hw hH ha h1 h2 h3 hst).ensures

example (t : A2BType) : Ensures (M := Msg) (fun i => decomposeArithmetic 8 (five7 i) 3 2) (statesOf t)
    (fun r st' => IsShares r [(1 : F7), 1] ∧ Corr t st') := by
  refine Ensures.mono (C67_decompose (by decide) (by decide) demo_hash isShare_five7 (by decide) (by decide)
    (by decide) (corr_statesOf t)) ?_
  rintro r st' ⟨⟨qs, hq, hr⟩, h⟩
  rw [hq.unique (rs := [1, 1]) ⟨by decide, by decide, by decide⟩] at hr
  exact ⟨hr, h⟩

example (t : A2BType) : Ensures (M := Msg) (fun i => decomposeArithmeticMany 8 [three7 i, five7 i] 3 2) (statesOf t)
    (fun r st' => (∃ qss, List.Forall₂ (fun x qs => AreDigits (2 ^ 2) ((3 + 2 - 1) / 2) (ZMod.val x % 2 ^ 3) qs)
          [(3 : F7), 5] qss ∧
        IsShares r (qss.flatten.map fun q : Nat => (q : ZMod 7))) ∧ Corr t st') :=
  C67_decompose_many (by decide) (by decide) demo_hash isShares_35 (by decide) (by decide)
    (by decide) (corr_statesOf t)

example (t : A2BType) : Ensures (M := Msg) (fun i => fieldModPower2 8 (five7 i) 2) (statesOf t)
    (fun r st' => IsShare r ((5 % 2 ^ 2 : Nat) : F7) ∧ Corr t st') :=
  C67_mod_power_2 (by decide) (by decide) demo_hash isShare_five7 (by decide) (by decide) (corr_statesOf t)

example (t : A2BType) : Ensures (M := Msg) (fun i => sliceArithmetic 8 (five7 i) 1 2 3) (statesOf t)
    (fun r st' => IsShares r [((5 % 2 ^ 2 / 2 ^ 1 : Nat) : F7), ((5 % 2 ^ 3 / 2 ^ 2 : Nat) : F7)] ∧ Corr t st') :=
  C67_slice (by decide) (by decide) demo_hash isShare_five7 (by decide) (by decide) (by decide) (corr_statesOf t)

example (t : A2BType) : Ensures (M := Msg) (fun i => sliceArithmeticMany 8 [three7 i, five7 i] 1 2 3) (statesOf t)
    (fun r st' => IsShares r [((3 % 2 ^ 2 / 2 ^ 1 : Nat) : F7), ((3 % 2 ^ 3 / 2 ^ 2 : Nat) : F7),
      ((5 % 2 ^ 2 / 2 ^ 1 : Nat) : F7), ((5 % 2 ^ 3 / 2 ^ 2 : Nat) : F7)] ∧ Corr t st') :=
  C67_slice_many (by decide) (by decide) demo_hash isShares_35 (by decide) (by decide) (by decide) (corr_statesOf t)

end Field

/-! ## C68: integer division of ring elements -/

section Ring

variable [Sample R (BitVec k)]

/-- C68: the quotient of two shared ring elements; division of `BitVec` is division of unsigned numbers. -/
theorem C68_div (hk : 0 < k) (hH : HashSeparates (YaoNet.hash M))
    {a b : PartyID → Share (BitVec k)} {x y : BitVec k} (ha : IsShare a x) (hb : IsShare b y) (h0 : y ≠ 0)
    (hst : Corr t st) :
    Ensures (M := M) (fun i => ringDiv (a i) (b i)) st (fun r st' => IsShare r (x / y) ∧ Corr t st') :=
  (Gc.spec_ringDiv hk hH ha hb h0 hst).ensures

/-- C68: vectors are divided element by element. -/
theorem C68_div_many (hk : 0 < k) (hH : HashSeparates (YaoNet.hash M))
    {a b : PartyID → List (Share (BitVec k))} {x y : List (BitVec k)} (ha : IsShares a x) (hb : IsShares b y)
    (hl : y.length = x.length) (h0 : ∀ u ∈ y, u ≠ 0) (hst : Corr t st) :
    Ensures (M := M) (fun i => ringDivMany (a i) (b i)) st (fun r st' =>
      IsShares r (List.zipWith (· / ·) x y) ∧ Corr t st') :=
  (Gc.spec_ringDivMany hk hH ha hb hl h0 hst).ensures

/-- C68: a public divisor. -/
theorem C68_div_by_public (hk : 0 < k) (hH : HashSeparates (YaoNet.hash M))
    {a : PartyID → Share (BitVec k)} {x y : BitVec k} (ha : IsShare a x) (h0 : y ≠ 0) (hst : Corr t st) :
    Ensures (M := M) (fun i => ringDivByPublic (a i) y) st (fun r st' => IsShare r (x / y) ∧ Corr t st') :=
  (Gc.spec_ringDivByPublic hk hH ha h0 hst).ensures

/-- C68: public divisors, vectors. -/
theorem C68_div_by_public_many (hk : 0 < k) (hH : HashSeparates (YaoNet.hash M))
    {a : PartyID → List (Share (BitVec k))} {x y : List (BitVec k)} (ha : IsShares a x)
    (hl : y.length = x.length) (h0 : ∀ u ∈ y, u ≠ 0) (hst : Corr t st) :
    Ensures (M := M) (fun i => ringDivByPublicMany (a i) y) st (fun r st' =>
      IsShares r (List.zipWith (· / ·) x y) ∧ Corr t st') :=
  (Gc.spec_ringDivByPublicMany hk hH ha hl h0 hst).ensures

/-- C68: a public dividend. -/
theorem C68_div_by_shared (hk : 0 < k) (hH : HashSeparates (YaoNet.hash M))
    {b : PartyID → Share (BitVec k)} {x y : BitVec k} (hb : IsShare b y) (h0 : y ≠ 0) (hst : Corr t st) :
    Ensures (M := M) (fun i => ringDivByShared x (b i)) st (fun r st' => IsShare r (x / y) ∧ Corr t st') :=
  (Gc.spec_ringDivByShared hk hH hb h0 hst).ensures

/-- C68: public dividends, vectors. -/
theorem C68_div_by_shared_many (hk : 0 < k) (hH : HashSeparates (YaoNet.hash M))
    {b : PartyID → List (Share (BitVec k))} {x y : List (BitVec k)} (hb : IsShares b y)
    (hl : x.length = y.length) (h0 : ∀ u ∈ y, u ≠ 0) (hst : Corr t st) :
    Ensures (M := M) (fun i => ringDivBySharedMany x (b i)) st (fun r st' =>
      IsShares r (List.zipWith (· / ·) x y) ∧ Corr t st') :=
  (Gc.spec_ringDivBySharedMany hk hH hb hl h0 hst).ensures

/-- C68: a power of two as the divisor, of any size. -/
theorem C68_div_power_2 (hk : 0 < k) (hH : HashSeparates (YaoNet.hash M))
    {a : PartyID → Share (BitVec k)} {x : BitVec k} (ha : IsShare a x) (s : Nat) (hst : Corr t st) :
    Ensures (M := M) (fun i => ringDivPower2 (a i) s) st (fun r st' =>
      IsShare r (BitVec.ofNat k (x.toNat / 2 ^ s)) ∧ Corr t st') := by
  have e : BitVec.ofNat k (x.toNat / 2 ^ s) = x >>> s := by
    apply BitVec.eq_of_toNat_eq
    rw [BitVec.toNat_ofNat, BitVec.toNat_ushiftRight, Nat.shiftRight_eq_div_pow,
      Nat.mod_eq_of_lt ((Nat.div_le_self _ _).trans_lt x.isLt)]
  rw [e]
  exact (Gc.spec_ringDivPower2 hk hH ha s hst).ensures

/-- C68: a power of two as the divisor, vectors. -/
theorem C68_div_power_2_many (hk : 0 < k) (hH : HashSeparates (YaoNet.hash M))
    {a : PartyID → List (Share (BitVec k))} {x : List (BitVec k)} (ha : IsShares a x) (s : Nat) (hst : Corr t st) :
    Ensures (M := M) (fun i => ringDivPower2Many (a i) s) st (fun r st' =>
      IsShares r (x.map fun x => BitVec.ofNat k (x.toNat / 2 ^ s)) ∧ Corr t st') := by
  have e : (x.map fun x => BitVec.ofNat k (x.toNat / 2 ^ s)) = x.map fun x : BitVec k => x >>> s := by
    refine List.map_congr_left fun x _ => ?_
    apply BitVec.eq_of_toNat_eq
    rw [BitVec.toNat_ofNat, BitVec.toNat_ushiftRight, Nat.shiftRight_eq_div_pow,
      Nat.mod_eq_of_lt ((Nat.div_le_self _ _).trans_lt x.isLt)]
  rw [e]
  exact (Gc.spec_ringDivPower2Many hk hH ha s hst).ensures

/-- A second vector of ring elements. -/
theorem isShares_3_200 : IsShares (fun i => [x3 i, x200 i]) [3#8, 200#8] :=
  ⟨[x3, x200], rfl, .cons isShare_x3 (.cons isShare_x200 .nil)⟩

example (t : A2BType) : Ensures (M := Msg) (fun i => ringDiv (x200 i) (x3 i)) (statesOf t)
    (fun r st' => IsShare r 66#8 ∧ Corr t st') :=
  C68_div (by decide) demo_hash isShare_x200 isShare_x3 (by decide) (corr_statesOf t)

example (t : A2BType) : Ensures (M := Msg) (fun i => ringDivMany [x200 i, x3 i] [x3 i, x200 i]) (statesOf t)
    (fun r st' => IsShares r [66#8, 0#8] ∧ Corr t st') :=
  C68_div_many (by decide) demo_hash isShares_200_3 isShares_3_200 rfl (by decide) (corr_statesOf t)

example (t : A2BType) : Ensures (M := Msg) (fun i => ringDivByPublic (x200 i) 7#8) (statesOf t)
    (fun r st' => IsShare r 28#8 ∧ Corr t st') :=
  C68_div_by_public (by decide) demo_hash isShare_x200 (y := 7#8) (by decide) (corr_statesOf t)

example (t : A2BType) : Ensures (M := Msg) (fun i => ringDivByPublicMany [x200 i, x3 i] [7#8, 2#8]) (statesOf t)
    (fun r st' => IsShares r [28#8, 1#8] ∧ Corr t st') :=
  C68_div_by_public_many (by decide) demo_hash isShares_200_3 (y := [7#8, 2#8]) rfl (by decide) (corr_statesOf t)

example (t : A2BType) : Ensures (M := Msg) (fun i => ringDivByShared 250#8 (x200 i)) (statesOf t)
    (fun r st' => IsShare r 1#8 ∧ Corr t st') :=
  C68_div_by_shared (by decide) demo_hash (x := 250#8) isShare_x200 (by decide) (corr_statesOf t)

example (t : A2BType) : Ensures (M := Msg) (fun i => ringDivBySharedMany [250#8, 9#8] [x200 i, x3 i]) (statesOf t)
    (fun r st' => IsShares r [1#8, 3#8] ∧ Corr t st') :=
  C68_div_by_shared_many (by decide) demo_hash (x := [250#8, 9#8]) isShares_200_3 rfl (by decide) (corr_statesOf t)

example (t : A2BType) : Ensures (M := Msg) (fun i => ringDivPower2 (x200 i) 4) (statesOf t)
    (fun r st' => IsShare r 12#8 ∧ Corr t st') :=
  C68_div_power_2 (by decide) demo_hash isShare_x200 4 (corr_statesOf t)

example (t : A2BType) : Ensures (M := Msg) (fun i => ringDivPower2Many [x200 i, x3 i] 1) (statesOf t)
    (fun r st' => IsShares r [100#8, 1#8] ∧ Corr t st') :=
  C68_div_power_2_many (by decide) demo_hash isShares_200_3 1 (corr_statesOf t)

/-! ## C69: limbs across fields and rings -/

/-- C69: a field element becomes `num` ring elements, the digits of its representative in base `2 ^ size`
(of its lowest `size * num` bits). -/
theorem C69_to_rings [NeZero p] (hp : p % 2 = 1) (hH : HashSeparates (YaoNet.hash M))
    {a : PartyID → Share (ZMod p)} {x : ZMod p} (ha : IsShare a x) {num size : Nat}
    (hn : 0 < num) (hs : 0 < size) (ht : size * num ≤ modBits p) (hsk : size ≤ k) (hst : Corr t st) :
    Ensures (M := M) (fun i => decomposeFieldToRings (k := k) (a i) num size) st (fun r st' =>
      (∃ qs, AreDigits (2 ^ size) num (x.val % 2 ^ (size * num)) qs ∧
        IsShares r (qs.map fun q : Nat => BitVec.ofNat k q)) ∧ Corr t st') :=
  ((Gc.spec_decomposeFieldToRings hp hH ha hn hs ht hsk hst).mono fun _ _ h =>
    ⟨⟨_, areDigits_limbs _ _ _, h.1⟩, h.2⟩).ensures

/-- C69: vectors; the limbs of each element follow one another. -/
theorem C69_to_rings_many [NeZero p] (hp : p % 2 = 1) (hH : HashSeparates (YaoNet.hash M))
    {a : PartyID → List (Share (ZMod p))} {x : List (ZMod p)} (ha : IsShares a x) {num size : Nat}
    (hn : 0 < num) (hs : 0 < size) (ht : size * num ≤ modBits p) (hsk : size ≤ k) (hst : Corr t st) :
    Ensures (M := M) (fun i => decomposeFieldToRingsMany (k := k) (a i) num size) st (fun r st' =>
      (∃ qss, List.Forall₂ (fun x qs => AreDigits (2 ^ size) num (ZMod.val x % 2 ^ (size * num)) qs) x qss ∧
        IsShares r (qss.flatten.map fun q : Nat => BitVec.ofNat k q)) ∧ Corr t st') := by
  refine ((Gc.spec_decomposeFieldToRingsMany hp hH ha hn hs ht hsk hst).mono fun _ _ h =>
    ⟨⟨x.map fun x => limbs size num x.val, ?_, ?_⟩, h.2⟩).ensures
  · rw [List.forall₂_map_right_iff, List.forall₂_same]
    intro x _
    exact areDigits_limbs _ _ _
  · have := h.1
    simp only [List.map_flatten, List.map_map, Function.comp_def]
    rw [List.flatMap_def] at this
    exact this

omit [Sample R (BitVec k)] in
/-- C69: quotient and remainder of shared ring elements by a public divisor, as limbs in the field: for each
element `num` limbs of the quotient, then `num` limbs of the remainder. -/
theorem C69_div_to_limbs_many [NeZero p] [Sample R (ZMod p)] (hp : p % 2 = 1) (hw : modBits p ≤ w) (hk : 0 < k)
    (hH : HashSeparates (YaoNet.hash M)) {a : PartyID → List (Share (BitVec k))} {x : List (BitVec k)}
    (ha : IsShares a x) {divisor : BitVec 512} (h0 : divisor.setWidth k ≠ 0) {size num : Nat} (hs : 0 < size)
    (hsp : size < modBits p) (hn : 0 < num) (hnum : num ≤ (k + size - 1) / size) (hst : Corr t st) :
    Ensures (M := M) (fun i => ringDivByPublicToLimbsMany (p := p) w (a i) divisor size num) st (fun r st' =>
      (∃ qss, List.Forall₂ (fun x (qs : List Nat × List Nat) =>
          AreDigits (2 ^ size) num ((x / divisor.setWidth k).toNat % 2 ^ (size * num)) qs.1 ∧
          AreDigits (2 ^ size) num ((x % divisor.setWidth k).toNat % 2 ^ (size * num)) qs.2) x qss ∧
        IsShares r ((qss.flatMap fun qs => qs.1 ++ qs.2).map fun q : Nat => (q : ZMod p))) ∧ Corr t st') := by
  refine ((Gc.spec_ringDivByPublicToLimbsMany hp hw hk hH ha h0 hs hsp hn hnum hst).mono fun _ _ h =>
    ⟨⟨x.map fun x => (limbs size num (x / divisor.setWidth k).toNat, limbs size num (x % divisor.setWidth k).toNat),
      ?_, ?_⟩, h.2⟩).ensures
  · rw [List.forall₂_map_right_iff, List.forall₂_same]
    intro x _
    exact ⟨areDigits_limbs _ _ _, areDigits_limbs _ _ _⟩
  · have := h.1
    rw [List.flatMap_def] at this
    simp only [List.flatMap_def, List.map_flatten, List.map_map, Function.comp_def]
    exact this

omit [Sample R (BitVec k)] in
/-- C69: the scalar form with one limb returns the limb of the quotient and the limb of the remainder. -/
theorem C69_div_to_limbs [NeZero p] [Sample R (ZMod p)] (hp : p % 2 = 1) (hw : modBits p ≤ w) (hk : 0 < k)
    (hH : HashSeparates (YaoNet.hash M)) {a : PartyID → Share (BitVec k)} {x : BitVec k}
    (ha : IsShare a x) {divisor : BitVec 512} (h0 : divisor.setWidth k ≠ 0) {size : Nat} (hs : 0 < size)
    (hsp : size < modBits p) (hst : Corr t st) :
    Ensures (M := M) (fun i => ringDivByPublicToLimbs (p := p) w (a i) divisor size 1) st (fun r st' =>
      IsShare (fun i => (r i).1) (((x / divisor.setWidth k).toNat % 2 ^ size : Nat) : ZMod p) ∧
      IsShare (fun i => (r i).2) (((x % divisor.setWidth k).toNat % 2 ^ size : Nat) : ZMod p) ∧ Corr t st') := by
  refine (Gc.spec_ringDivByPublicToLimbs (rest := []) hp hw hk hH ha h0 hs hsp (by decide) ?_ hst ?_).ensures
  · show 1 ≤ (k + size - 1) / size
    rw [Nat.le_div_iff_mul_le hs]
    omega
  · simp [limbs]

omit [Sample R (BitVec k)] in
/-- C69: with more limbs the scalar form returns two limbs of the quotient and nothing of the remainder (F15). -/
theorem C69_div_to_limbs_drops_remainder [NeZero p] [Sample R (ZMod p)] (hp : p % 2 = 1) (hw : modBits p ≤ w)
    (hk : 0 < k) (hH : HashSeparates (YaoNet.hash M)) {a : PartyID → Share (BitVec k)} {x : BitVec k}
    (ha : IsShare a x) {divisor : BitVec 512} (h0 : divisor.setWidth k ≠ 0) {size num : Nat} (hs : 0 < size)
    (hsp : size < modBits p) (hn : 2 ≤ num) (hnum : num ≤ (k + size - 1) / size) (hst : Corr t st) :
    Ensures (M := M) (fun i => ringDivByPublicToLimbs (p := p) w (a i) divisor size num) st (fun r st' =>
      IsShare (fun i => (r i).1) (((x / divisor.setWidth k).toNat % 2 ^ size : Nat) : ZMod p) ∧
      IsShare (fun i => (r i).2) (((x / divisor.setWidth k).toNat / 2 ^ size % 2 ^ size : Nat) : ZMod p) ∧
      Corr t st') := by
  obtain ⟨n, rfl⟩ : ∃ n, num = n + 2 := ⟨num - 2, by omega⟩
  refine (Gc.spec_ringDivByPublicToLimbs hp hw hk hH ha h0 hs hsp (by omega) hnum hst
    (rest := (List.range n).map (fun i => (x / divisor.setWidth k).toNat / 2 ^ (size * (i + 2)) % 2 ^ size) ++
      limbs size (n + 2) (x % divisor.setWidth k).toNat) ?_).ensures
  simp [limbs, List.range_succ_eq_map, Function.comp_def, Nat.add_assoc]

example (t : A2BType) : Ensures (M := Msg) (fun i => decomposeFieldToRings (k := 8) (five7 i) 3 1) (statesOf t)
    (fun r st' => IsShares r [1#8, 0#8, 1#8] ∧ Corr t st') := by
  refine Ensures.mono (C69_to_rings (by decide) demo_hash isShare_five7 (by decide) (by decide)
    (by decide) (by decide) (corr_statesOf t)) ?_
  rintro r st' ⟨⟨qs, hq, hr⟩, h⟩
  rw [hq.unique (rs := [1, 0, 1]) ⟨by decide, by decide, by decide⟩] at hr
  exact ⟨hr, h⟩

example (t : A2BType) : Ensures (M := Msg) (fun i => decomposeFieldToRingsMany (k := 8) [three7 i, five7 i] 3 1)
    (statesOf t) (fun r st' => (∃ qss, List.Forall₂ (fun x qs =>
      AreDigits (2 ^ 1) 3 (ZMod.val x % 2 ^ (1 * 3)) qs) [(3 : F7), 5] qss ∧
        IsShares r (qss.flatten.map fun q : Nat => BitVec.ofNat 8 q)) ∧ Corr t st') :=
  C69_to_rings_many (by decide) demo_hash isShares_35 (by decide) (by decide) (by decide) (by decide)
    (corr_statesOf t)

example (t : A2BType) : Ensures (M := Msg)
    (fun i => ringDivByPublicToLimbsMany (p := 7) 8 [x200 i, x3 i] 7#512 2 4) (statesOf t) (fun r st' =>
      (∃ qss, List.Forall₂ (fun x (qs : List Nat × List Nat) =>
          AreDigits (2 ^ 2) 4 ((x / (7#512).setWidth 8).toNat % 2 ^ (2 * 4)) qs.1 ∧
          AreDigits (2 ^ 2) 4 ((x % (7#512).setWidth 8).toNat % 2 ^ (2 * 4)) qs.2) [200#8, 3#8] qss ∧
        IsShares r ((qss.flatMap fun qs => qs.1 ++ qs.2).map fun q : Nat => (q : ZMod 7))) ∧ Corr t st') :=
  C69_div_to_limbs_many (by decide) (by decide) (by decide) demo_hash isShares_200_3 (by simp) (by decide)
    (by decide) (by decide) (by decide) (corr_statesOf t)

example (t : A2BType) : Ensures (M := Msg) (fun i => ringDivByPublicToLimbs (p := 7) 8 (x200 i) 60#512 2 1)
    (statesOf t) (fun r st' => IsShare (fun i => (r i).1) (3 : F7) ∧ IsShare (fun i => (r i).2) (0 : F7) ∧
      Corr t st') := by
  have := C69_div_to_limbs (M := Msg) (p := 7) (w := 8) (k := 8) (by decide) (by decide) (by decide) demo_hash
    isShare_x200 (divisor := 60#512) (by simp) (size := 2) (by decide) (by decide) (corr_statesOf t)
  simpa using this

example (t : A2BType) : Ensures (M := Msg) (fun i => ringDivByPublicToLimbs (p := 7) 8 (x200 i) 7#512 2 2)
    (statesOf t) (fun r st' => IsShare (fun i => (r i).1) (0 : F7) ∧ IsShare (fun i => (r i).2) (3 : F7) ∧
      Corr t st') := by
  have := C69_div_to_limbs_drops_remainder (M := Msg) (p := 7) (w := 8) (k := 8) (by decide) (by decide) (by decide)
    demo_hash isShare_x200 (divisor := 7#512) (by simp) (size := 2) (num := 2) (by decide) (by decide) (by decide)
    (by decide) (corr_statesOf t)
  simpa using this

/-! ## C70: conversions of ring elements -/

/-- C70: from additive to binary sharing of a ring element, both ways of running the circuit. -/
theorem C70_a2b [UintCodec M k] (hk : 0 < k) {a : PartyID → Share (BitVec k)} {x : BitVec k} (ha : IsShare a x)
    (hst : Corr t st) :
    Ensures (M := M) (fun i => a2y2bRing (a i)) st (fun r st' => IsBShare r x ∧ Corr t st') ∧
    Ensures (M := M) (fun i => a2y2bRingStreaming (a i)) st (fun r st' => IsBShare r x ∧ Corr t st') :=
  ⟨(Gc.spec_a2y2bRing hk ha hst).ensures, (Gc.spec_a2y2bRingStreaming hk ha hst).ensures⟩

/-- C70: from binary to additive sharing of a ring element, both ways of running the circuit. -/
theorem C70_b2a (hk : 0 < k) (hH : HashSeparates (YaoNet.hash M)) {a : PartyID → Share (BitVec k)} {x : BitVec k}
    (ha : IsBShare a x) (hst : Corr t st) :
    Ensures (M := M) (fun i => b2y2aRing (a i)) st (fun r st' => IsShare r x ∧ Corr t st') ∧
    Ensures (M := M) (fun i => b2y2aRingStreaming (a i)) st (fun r st' => IsShare r x ∧ Corr t st') :=
  ⟨(Gc.spec_b2y2aRing hk hH ha hst).ensures, (Gc.spec_b2y2aRingStreaming hk hH ha hst).ensures⟩

/-- C70: from the field into a ring: the remainder of the representative. -/
theorem C70_field_to_ring [NeZero p] (hp : p % 2 = 1) (hk : 0 < k) (hkp : k ≤ modBits p)
    (hH : HashSeparates (YaoNet.hash M)) {a : PartyID → List (Share (ZMod p))} {x : List (ZMod p)}
    (ha : IsShares a x) (hst : Corr t st) :
    Ensures (M := M) (fun i => fieldToRingMany (k := k) (a i)) st (fun r st' =>
      IsShares r (x.map fun x => BitVec.ofNat k x.val) ∧ Corr t st') :=
  (Gc.spec_fieldToRingMany hp hk hkp hH ha hst).ensures

omit [Sample R (BitVec k)] in
/-- C70: from a ring into the field, for elements below the modulus. -/
theorem C70_ring_to_field [NeZero p] [Sample R (ZMod p)] (hp : p % 2 = 1) (hw : modBits p ≤ w) (hk : 0 < k)
    (hkp : k ≤ modBits p) (hH : HashSeparates (YaoNet.hash M)) {a : PartyID → List (Share (BitVec k))}
    {x : List (BitVec k)} (ha : IsShares a x) (hx : ∀ u ∈ x, u.toNat < p) (hst : Corr t st) :
    Ensures (M := M) (fun i => ringToFieldManyGc (p := p) w (a i)) st (fun r st' =>
      IsShares r (x.map fun x => (x.toNat : ZMod p)) ∧ Corr t st') :=
  (Gc.spec_ringToFieldManyGc hp hw hk hkp hH ha hx hst).ensures

omit [Sample R (BitVec k)] in
/-- C70: into a wider ring: the unsigned number is unchanged. -/
theorem C70_upcast {l : Nat} [Sample R (BitVec l)] (hk : 0 < k) (hkl : k < l) (hH : HashSeparates (YaoNet.hash M))
    {a : PartyID → List (Share (BitVec k))} {x : List (BitVec k)} (ha : IsShares a x) (hst : Corr t st) :
    Ensures (M := M) (fun i => upcastManyGc (l := l) (a i)) st (fun r st' =>
      (∃ y, IsShares r y ∧ List.Forall₂ (fun (x : BitVec k) (y : BitVec l) => y.toNat = x.toNat) x y) ∧
        Corr t st') := by
  refine ((Gc.spec_upcastManyGc hk hkl hH ha hst).mono fun _ _ h => ⟨⟨_, h.1, ?_⟩, h.2⟩).ensures
  rw [List.forall₂_map_right_iff, List.forall₂_same]
  intro x _
  rw [BitVec.toNat_setWidth, Nat.mod_eq_of_lt]
  exact x.isLt.trans (Nat.pow_lt_pow_right (by decide) hkl)

example (t : A2BType) : Ensures (M := Msg) (fun i => a2y2bRing (x200 i)) (statesOf t)
    (fun r st' => IsBShare r 200#8 ∧ Corr t st') :=
  (C70_a2b (by decide) isShare_x200 (corr_statesOf t)).1

example (t : A2BType) : Ensures (M := Msg) (fun i => b2y2aRing (six8 i)) (statesOf t)
    (fun r st' => IsShare r 6#8 ∧ Corr t st') :=
  (C70_b2a (by decide) demo_hash isBShare_six8 (corr_statesOf t)).1

example (t : A2BType) : Ensures (M := Msg) (fun i => fieldToRingMany (k := 2) [three7 i, five7 i]) (statesOf t)
    (fun r st' => IsShares r [3#2, 1#2] ∧ Corr t st') :=
  C70_field_to_ring (by decide) (by decide) (by decide) demo_hash isShares_35 (corr_statesOf t)

example (t : A2BType) : Ensures (M := Msg) (fun i => ringToFieldManyGc (p := 7) 8 [bit1 i, bit0 i]) (statesOf t)
    (fun r st' => IsShares r [((1 : Nat) : F7), ((0 : Nat) : F7)] ∧ Corr t st') :=
  C70_ring_to_field (by decide) (by decide) (by decide) (by decide) demo_hash isShares_bits (by decide)
    (corr_statesOf t)

example (t : A2BType) : Ensures (M := Msg) (fun i => upcastManyGc (l := 8) [bit1 i, bit0 i]) (statesOf t)
    (fun r st' => (∃ y, IsShares r y ∧
      List.Forall₂ (fun (x : BitVec 1) (y : BitVec 8) => y.toNat = x.toNat) [1#1, 0#1] y) ∧ Corr t st') :=
  C70_upcast (by decide) (by decide) demo_hash isShares_bits (corr_statesOf t)

end Ring

end Verif.Props
