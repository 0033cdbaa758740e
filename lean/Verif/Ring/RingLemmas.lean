import Verif.Ring.Ring
import Verif.Rep3.InjectLemmas
import Verif.Yao.BlueprintOps

/-!
# Lemmas about shares over the integers modulo `2^k`
-/

namespace Verif.Rep3.Ring

open PartyID
open MPC (bail panicWith)

variable {R M : Type} {k l : Nat} {ty : A2BType} {st : PartyID → Rep3State R}

/-! ### Components -/

section Pure

theorem not3 (a b c : BitVec k) : ~~~a ^^^ ~~~b ^^^ ~~~c = ~~~(a ^^^ b ^^^ c) := by
  ext i hi
  simp only [BitVec.getElem_xor, BitVec.getElem_not]
  cases a[i] <;> cases b[i] <;> cases c[i] <;> rfl

theorem _root_.Verif.IsBShare.bnot {x : PartyID → Share (BitVec k)} {v : BitVec k} (h : IsBShare x v) :
    IsBShare (fun i => (x i).bnot) (~~~v) := by
  refine ⟨fun i => by simp [Share.bnot, h.1 i], ?_⟩
  rw [← h.2]
  exact not3 _ _ _

theorem ofBool_xor3 (a b c : Bool) :
    BitVec.ofBool a ^^^ BitVec.ofBool b ^^^ BitVec.ofBool c = BitVec.ofBool (a ^^ b ^^ c) := by
  cases a <;> cases b <;> cases c <;> rfl

theorem _root_.Verif.IsBShare.getBit {x : PartyID → Share (BitVec k)} {v : BitVec k} (h : IsBShare x v)
    (j : Nat) : IsBShare (fun i => (x i).getBit j) (BitVec.ofBool (v.getLsbD j)) := by
  refine ⟨fun i => by simp [Share.getBit, h.1 i], ?_⟩
  rw [← h.2]
  simp only [Share.getBit, BitVec.getLsbD_xor]
  exact ofBool_xor3 _ _ _

theorem _root_.Verif.IsBShare.castTo {x : PartyID → Share (BitVec k)} {v : BitVec k} (h : IsBShare x v)
    (l : Nat) : IsBShare (fun i => (x i).castTo l) (v.setWidth l) := by
  refine ⟨fun i => by simp [Share.castTo, h.1 i], ?_⟩
  rw [← h.2]
  simp [Share.castTo, BitVec.setWidth_xor]

theorem _root_.Verif.IsShare.castTo {x : PartyID → Share (BitVec k)} {v : BitVec k} (h : IsShare x v)
    (hl : l ≤ k) : IsShare (fun i => (x i).castTo l) (v.setWidth l) := by
  refine ⟨fun i => by simp [Share.castTo, h.1 i], ?_⟩
  rw [← h.2]
  simp [Share.castTo, BitVec.setWidth_add _ _ hl]

/-- In the ring of one bit both kinds of sharing are the same. -/
theorem isShare_one {x : PartyID → Share (BitVec 1)} {v : BitVec 1} : IsShare x v ↔ IsBShare x v := by
  have h : ∀ a b : BitVec 1, a + b = a ^^^ b := by decide
  simp [IsShare, IsBShare, h]

theorem mask_full : Uint.mask k k = BitVec.allOnes k := by
  apply BitVec.eq_of_getLsbD_eq
  intro i hi
  simp [Uint.getLsbD_mask, hi]

end Pure

/-! ### Arithmetic -/

section Arith

variable [Sample R (BitVec k)] [UintCodec M k]

theorem spec_powLoop (n : Nat) {a b : PartyID → Share (BitVec k)} {x y : BitVec k} (ha : IsShare a x)
    (hb : IsShare b y) (hst : Corr ty st) :
    Spec (M := M) (fun i => powLoop n (a i) (b i)) st
      (fun r st' => IsShare r (x * y ^ n) ∧ Corr ty st') := by
  have e : (fun i => powLoop n (a i) (b i) : PartyID → Rep3M R M _) =
      fun i => Rep3.powLoop n (a i) (b i) := by
    funext i
    generalize a i = a
    generalize b i = b
    clear ha hb
    induction n using Nat.strongRecOn generalizing a b with
    | _ n ih =>
      rw [powLoop, Rep3.powLoop]
      split
      · rfl
      · rename_i h
        have : (if n % 2 = 1 then n - 1 else n) / 2 = n / 2 := by split <;> omega
        simp only [this, ih (n / 2) (by omega)]
  rw [e]
  exact Rep3.spec_powLoop n ha hb hst

theorem spec_powPublic (n : BitVec k) {a : PartyID → Share (BitVec k)} {x : BitVec k} (ha : IsShare a x)
    (hst : Corr ty st) :
    Spec (M := M) (fun i => powPublic (a i) n) st
      (fun r st' => IsShare r (x ^ n.toNat) ∧ Corr ty st') := by
  refine Spec.bind (spec_stateId hst) ?_
  rintro v st' ⟨rfl, rfl⟩
  have := spec_powLoop (M := M) n.toNat (IsShare.promote (1#k)) ha hst
  have e : ∀ y : BitVec k, 1#k * y = y := BitVec.one_mul
  rw [e] at this
  exact this

theorem shl_one (d : BitVec k) : d <<< 1 = d + d := by
  apply BitVec.eq_of_toNat_eq
  simp [BitVec.toNat_shiftLeft, BitVec.toNat_add, Nat.shiftLeft_eq]
  congr 1
  omega

theorem spec_arithmeticXor {a b : PartyID → Share (BitVec k)} {x y : BitVec k} (ha : IsShare a x)
    (hb : IsShare b y) (hst : Corr ty st) :
    Spec (M := M) (fun i => arithmeticXor (a i) (b i)) st
      (fun r st' => IsShare r (x + y - 2 * (x * y)) ∧ Corr ty st') := by
  have e : (fun i => arithmeticXor (a i) (b i) : PartyID → Rep3M R M _) =
      fun i => Rep3.arithmeticXor (a i) (b i) := by
    funext i
    simp only [arithmeticXor, Rep3.arithmeticXor, shl_one]
  rw [e]
  exact Rep3.spec_arithmeticXor ha hb hst

theorem spec_arithmeticXorMany {a b : PartyID → List (Share (BitVec k))} {x y : List (BitVec k)}
    (ha : IsShares a x) (hb : IsShares b y) (hst : Corr ty st) :
    Spec (M := M) (fun i => arithmeticXorMany (a i) (b i)) st
      (fun r st' => IsShares r (List.zipWith (fun x y => x + y - 2 * (x * y)) x y) ∧ Corr ty st') := by
  have e : (fun i => arithmeticXorMany (a i) (b i) : PartyID → Rep3M R M _) =
      fun i => Rep3.arithmeticXorMany (a i) (b i) := by
    funext i
    simp only [arithmeticXorMany, Rep3.arithmeticXorMany, shl_one]
  rw [e]
  exact Rep3.spec_arithmeticXorMany ha hb hst

end Arith

/-! ### Binary operations -/

section Binary

theorem maskBits_eq [Sample R (BitVec k)] : (maskBits : Rep3M R M (BitVec k)) = Bin.maskBits k := by
  have e : Rep3Rand.randomUint (R := R) k k = Rep3Rand.randomPair (α := BitVec k) := by
    funext g
    simp [Rep3Rand.randomUint, mask_full]
  rw [maskBits, Bin.maskBits, e]

theorem openBits_eq [UintCodec M k] (a : Share (BitVec k)) :
    (openBits a : Rep3M R M _) = Bin.openShare a := rfl

variable [Sample R (BitVec k)] [UintCodec M k]

theorem and_eq (a b : Share (BitVec k)) : (and a b : Rep3M R M _) = Bin.and a b := by
  rw [and, Bin.and, maskBits_eq]

theorem andVec_eq (a b : List (Share (BitVec k))) : (andVec a b : Rep3M R M _) = Bin.andVec a b := by
  simp only [andVec, Bin.andVec, maskBits_eq]

theorem or_eq (a b : Share (BitVec k)) : (or a b : Rep3M R M _) = Bin.or a b := by
  simp only [or, Bin.or, and_eq]

theorem cmuxBits_eq (c a b : Share (BitVec k)) : (cmuxBits c a b : Rep3M R M _) = Bin.cmux c a b := by
  simp only [cmuxBits, Bin.cmux, and_eq]

theorem orLoop_eq (fuel : Nat) (a : List (Share (BitVec k))) :
    (orLoop fuel a : Rep3M R M _) = Bin.orLoop fuel a := by
  induction fuel generalizing a with
  | zero => rfl
  | succ n ih =>
    simp only [orLoop, Bin.orLoop, orLevel, Bin.orLevel, or_eq, ih]
    rfl

theorem orTree_eq (a : List (Share (BitVec k))) : (orTree a : Rep3M R M _) = Bin.orTree a :=
  orLoop_eq _ _

theorem ones_eq (half : Nat) (h : half < k) : (1#k <<< half) - 1#k = Uint.mask k half := by
  have h1 : (1#k).toNat = 1 := by
    rw [BitVec.toNat_ofNat]
    exact Nat.mod_eq_of_lt (Nat.one_lt_two_pow (by omega))
  have h2 : (1#k <<< half).toNat = 2 ^ half := by
    rw [BitVec.toNat_shiftLeft, h1, Nat.shiftLeft_eq, Nat.one_mul]
    exact Nat.mod_eq_of_lt (Nat.pow_lt_pow_right (by decide) h)
  apply BitVec.eq_of_toNat_eq
  rw [BitVec.toNat_sub_of_le (by rw [BitVec.le_def, h1, h2]; exact Nat.one_le_two_pow), h1, h2,
    Uint.mask_toNat (by omega)]

theorem spec_isZeroLoop (d : Nat) (hd : 2 ^ d ≤ k) {x : PartyID → Share (BitVec k)} {v : BitVec k}
    (hx : IsBShare x v) (hst : Corr ty st) :
    Spec (M := M) (fun i => isZeroLoop (2 ^ d) (x i)) st (fun r st' =>
      (∃ u : BitVec k, IsBShare r u ∧ u.getLsbD 0 = decide (∀ j < 2 ^ d, v.getLsbD j = true)) ∧
        Corr ty st') := by
  induction d generalizing x v st with
  | zero =>
    have e : (fun i => isZeroLoop (2 ^ 0) (x i) : PartyID → Rep3M R M _) = fun i => pure (x i) := by
      funext i; rw [isZeroLoop]; rfl
    rw [e]
    exact Spec.pure ⟨⟨v, hx, by simp⟩, hst⟩
  | succ d ih =>
    have hp : 0 < 2 ^ d := Nat.two_pow_pos d
    have e2 : 2 ^ (d + 1) = 2 ^ d + 2 ^ d := by rw [pow_succ]; omega
    have e : (fun i => isZeroLoop (2 ^ (d + 1)) (x i) : PartyID → Rep3M R M _) = fun i =>
        and ((x i).andMask (Uint.mask k (2 ^ d))) (((x i).shr (2 ^ d)).andMask (Uint.mask k (2 ^ d))) >>=
          fun x => isZeroLoop (2 ^ d) x := by
      funext i
      rw [isZeroLoop, if_pos (by omega)]
      have : 2 ^ (d + 1) / 2 = 2 ^ d := by omega
      simp only [this, ones_eq (2 ^ d) (by omega : 2 ^ d < k)]
    rw [e]
    simp only [and_eq]
    refine Spec.bind (Bin.spec_and (hx.andMask _) ((hx.shr _).andMask _) hst) ?_
    rintro y st' ⟨hy, hst'⟩
    refine (ih (by omega) hy hst').mono ?_
    rintro r st'' ⟨⟨u, hu, h⟩, hst''⟩
    refine ⟨⟨u, hu, ?_⟩, hst''⟩
    rw [h]
    congr 1
    simp only [BitVec.getLsbD_and, BitVec.getLsbD_ushiftRight, Uint.getLsbD_mask, Bool.and_eq_true,
      decide_eq_true_eq, eq_iff_iff]
    constructor
    · intro h j hj
      by_cases hj' : j < 2 ^ d
      · exact (h j hj').1.1
      · have := (h (j - 2 ^ d) (by omega)).2.1
        rwa [show 2 ^ d + (j - 2 ^ d) = j by omega] at this
    · intro h j hj
      exact ⟨⟨h j (by omega), by omega, hj⟩, h _ (by omega), by omega, hj⟩

theorem spec_isZeroBits {d : Nat} (hd : k = 2 ^ d) {x : PartyID → Share (BitVec k)} {v : BitVec k}
    (hx : IsBShare x v) (hst : Corr ty st) :
    Spec (M := M) (fun i => isZeroBits (x i)) st (fun r st' =>
      IsBShare r (BitVec.ofBool (decide (v = 0#k))) ∧ Corr ty st') := by
  have key := spec_isZeroLoop (M := M) d (by omega) hx.bnot hst
  rw [← hd] at key
  refine Spec.bind key ?_
  rintro r st' ⟨⟨u, hu, h⟩, hst'⟩
  have hk : 0 < k := by rw [hd]; exact Nat.two_pow_pos d
  have e : ∀ y : BitVec k, decide (y &&& 1#k = 1#k) = y.getLsbD 0 := by
    intro y
    rw [and_one_eq]
    have : (1#k : BitVec k) ≠ 0#k := by
      intro h
      have := congrArg (fun v => v.getLsbD 0) h
      simp at this
      omega
    cases y.getLsbD 0 <;> simp [this.symm]
  refine Spec.pure ⟨?_, hst'⟩
  simp only [e]
  have := hu.getBit 0
  rw [h] at this
  have e2 : decide (∀ j < k, (~~~v).getLsbD j = true) = decide (v = 0#k) := by
    congr 1
    rw [eq_iff_iff]
    constructor
    · intro h
      apply BitVec.eq_of_getLsbD_eq
      intro j hj
      have := h j hj
      simpa [hj] using this
    · rintro rfl j hj
      simp [hj]
  rw [e2] at this
  exact this

end Binary

/-! ### Adders -/

section Detail

theorem ksRound_eq (pg : BitVec k × BitVec k) (i : Nat) :
    Bin.ksRound k pg i = (pg.1 &&& pg.1 <<< 2 ^ i, pg.2 ^^^ (pg.2 <<< 2 ^ i &&& pg.1)) := by
  unfold Bin.ksRound
  refine Prod.ext ?_ ?_
  · apply BitVec.eq_of_getLsbD_eq
    intro j hj
    simp only [BitVec.getLsbD_shiftLeft, BitVec.getLsbD_and, BitVec.getLsbD_ushiftRight,
      Uint.getLsbD_mask]
    by_cases h : j < 2 ^ i
    · simp [h]
    · have h1 : 2 ^ i + (j - 2 ^ i) = j := by omega
      have h2 : j - 2 ^ i < k := lt_of_le_of_lt (Nat.sub_le _ _) hj
      have h3 : j - 2 ^ i < k - 2 ^ i := by omega
      simp [h, h1, h2, h3, hj]
  · apply BitVec.eq_of_getLsbD_eq
    intro j hj
    simp only [BitVec.getLsbD_xor, BitVec.getLsbD_shiftLeft, BitVec.getLsbD_and,
      BitVec.getLsbD_ushiftRight, Uint.getLsbD_mask]
    by_cases h : j < 2 ^ i
    · simp [h]
    · have h1 : 2 ^ i + (j - 2 ^ i) = j := by omega
      have h2 : j - 2 ^ i < k := lt_of_le_of_lt (Nat.sub_le _ _) hj
      have h3 : j - 2 ^ i < k - 2 ^ i := by omega
      simp [h, h1, h2, h3, hj]

theorem halvings_pow (d : Nat) : Bin.halvings (2 ^ d - 1) = d := by
  induction d with
  | zero => rw [Bin.halvings]; rfl
  | succ d ih =>
    have hp : 0 < 2 ^ d := Nat.two_pow_pos d
    have e2 : 2 ^ (d + 1) = 2 ^ d + 2 ^ d := by rw [pow_succ]; omega
    rw [Bin.halvings, if_neg (by omega), show (2 ^ (d + 1) - 1) / 2 = 2 ^ d - 1 by omega, ih]

theorem log2_eq {d : Nat} (hd : k = 2 ^ d) : Nat.log2 k = Bin.ceilLog2 k := by
  subst hd
  rw [Nat.log2_two_pow, Bin.ceilLog2, halvings_pow]

/-- The generate bits after all rounds. -/
def ksGen (p g : BitVec k) : BitVec k := ((List.range (Bin.ceilLog2 k)).foldl (Bin.ksRound k) (p, g)).2

theorem ksPlain_eq (p g : BitVec k) : Bin.ksPlain p g k = (ksGen p g <<< 1) ^^^ p := rfl

theorem getLsbD_ksGen (p g : BitVec k) (j : Nat) (hj : j < k) :
    (ksGen p g).getLsbD j = Bin.carryOut p.getLsbD g.getLsbD j := by
  have := ((Bin.ks_invariant k p g (Bin.ceilLog2 k) j hj).1 hj).2
  rw [ksGen, this]
  exact Bin.gen_full _ _ _ _ (lt_of_lt_of_le hj (Bin.le_two_pow_ceilLog2 k))

/-- The carry out of the whole addition `x + y + c`. -/
theorem carry_top (x y : BitVec k) (c : Bool) (p g : BitVec k) (hk : 0 < k) (hp : p = x ^^^ y)
    (hg : ∀ j, g.getLsbD j = Bool.xor (x.getLsbD j && y.getLsbD j)
      (decide (j = 0) && (c && p.getLsbD 0))) :
    (ksGen p g).getLsbD (k - 1) = decide (2 ^ k ≤ x.toNat + y.toNat + c.toNat) := by
  rw [getLsbD_ksGen _ _ _ (by omega), Bin.carryOut_eq x y c _ _ (by intro j; rw [hp, BitVec.getLsbD_xor]) hg,
    show k - 1 + 1 = k by omega, BitVec.carry, Nat.mod_eq_of_lt x.isLt, Nat.mod_eq_of_lt y.isLt]

theorem one_getLsbD (hk : 0 < k) (j : Nat) : (1#k).getLsbD j = decide (j = 0) := by
  rw [BitVec.getLsbD_one]; simp [hk]

theorem carry_sub (x y : BitVec k) (hk : 0 < k) :
    (ksGen (x ^^^ ~~~y) ((x &&& ~~~y) ^^^ ((x ^^^ ~~~y) &&& 1#k))).getLsbD (k - 1) =
      decide (y.toNat ≤ x.toNat) := by
  rw [carry_top x (~~~y) true _ _ hk rfl]
  · congr 1
    have hx := x.isLt
    have hy := y.isLt
    rw [BitVec.toNat_not, eq_iff_iff]
    simp only [Bool.toNat_true]
    omega
  · intro j
    simp only [BitVec.getLsbD_xor, BitVec.getLsbD_and, one_getLsbD hk]
    by_cases hj : j = 0
    · subst hj; simp
    · simp [hj]

theorem carry_sub_const (x y : BitVec k) (hk : 0 < k) :
    (ksGen (x ^^^ (~~~y + 1#k)) (x &&& (~~~y + 1#k))).getLsbD (k - 1) =
      (decide (y.toNat ≠ 0) && decide (y.toNat ≤ x.toNat)) := by
  rw [carry_top x (~~~y + 1#k) false _ _ hk rfl]
  · have hx := x.isLt
    have hy := y.isLt
    have hy' : (~~~y + 1#k).toNat = (2 ^ k - y.toNat) % 2 ^ k := by
      rw [← BitVec.neg_eq_not_add, BitVec.toNat_neg]
    rw [hy']
    by_cases h : y.toNat = 0
    · simp [h]; omega
    · rw [Nat.mod_eq_of_lt (by omega)]
      simp [h]; omega
  · intro j
    simp

variable [Sample R (BitVec k)] [UintCodec M k]

theorem andTwice_eq (a b c : Share (BitVec k)) :
    (andTwice a b c : Rep3M R M _) = Bin.andTwice a b c k := by
  simp only [andTwice, Bin.andTwice, maskBits_eq]

theorem andTwiceMany_eq (l : List (Share (BitVec k) × Share (BitVec k) × Share (BitVec k))) :
    (andTwiceMany l : Rep3M R M _) = Bin.andTwiceMany l k := by
  simp only [andTwiceMany, Bin.andTwiceMany, maskBits_eq]

theorem spec_koggeStoneLoop {d : Nat} (hd : k = 2 ^ d) {p g : PartyID → Share (BitVec k)}
    {v u : BitVec k} (hp : IsBShare p v) (hg : IsBShare g u) (hst : Corr ty st) :
    Spec (M := M) (fun i => koggeStoneLoop (p i) (g i)) st
      (fun r st' => IsBShare r (ksGen v u) ∧ Corr ty st') := by
  unfold koggeStoneLoop
  rw [log2_eq hd]
  refine Spec.bind (Spec.foldlM (f := fun _ => koggeStoneRound)
    (s := fun i => (p i, g i)) (v := (v, u)) (I := Corr ty) (step := Bin.ksRound k)
    (Rel := fun (s : PartyID → Share (BitVec k) × Share (BitVec k)) (v : BitVec k × BitVec k) =>
      IsBShare (fun i => (s i).1) v.1 ∧ IsBShare (fun i => (s i).2) v.2) ?_ ⟨hp, hg⟩ hst) ?_
  · rintro i - s ⟨v, u⟩ st ⟨h1, h2⟩ hst
    simp only [koggeStoneRound, andTwice_eq]
    refine Spec.bind (Bin.spec_andTwice _ h1 (h2.shl _) (h1.shl _) hst) ?_
    rintro r st' ⟨⟨h3, h4⟩, hst'⟩
    rw [ksRound_eq]
    exact Spec.pure ⟨⟨h4, h2.bxor h3⟩, hst'⟩
  · rintro r st' ⟨⟨h1, h2⟩, hst'⟩
    exact Spec.pure ⟨h2, hst'⟩

theorem spec_koggeStoneInner {d : Nat} (hd : k = 2 ^ d) {p g : PartyID → Share (BitVec k)}
    {v u : BitVec k} (hp : IsBShare p v) (hg : IsBShare g u) (hst : Corr ty st) :
    Spec (M := M) (fun i => koggeStoneInner (p i) (g i)) st
      (fun r st' => IsBShare r (Bin.ksPlain v u k) ∧ Corr ty st') := by
  refine Spec.bind (spec_koggeStoneLoop hd hp hg hst) ?_
  rintro r st' ⟨h, hst'⟩
  exact Spec.pure ⟨(h.shl 1).bxor hp, hst'⟩

theorem spec_koggeStoneInnerWithCarry {d : Nat} (hd : k = 2 ^ d) {p g : PartyID → Share (BitVec k)}
    {v u : BitVec k} (hp : IsBShare p v) (hg : IsBShare g u) (hst : Corr ty st) :
    Spec (M := M) (fun i => koggeStoneInnerWithCarry (p i) (g i)) st
      (fun r st' => (IsBShare (fun i => (r i).1) (Bin.ksPlain v u k) ∧
        IsBShare (fun i => (r i).2) (BitVec.ofBool ((ksGen v u).getLsbD (k - 1)))) ∧ Corr ty st') := by
  refine Spec.bind (spec_koggeStoneLoop hd hp hg hst) ?_
  rintro r st' ⟨h, hst'⟩
  exact Spec.pure ⟨⟨(h.shl 1).bxor hp, h.getBit _⟩, hst'⟩

theorem spec_koggeStoneInnerMany {d : Nat} (hd : k = 2 ^ d) {p g : PartyID → List (Share (BitVec k))}
    {l : List (BitVec k × BitVec k)}
    (hp : IsBShares p (l.map Prod.fst)) (hg : IsBShares g (l.map Prod.snd)) (hst : Corr ty st) :
    Spec (M := M) (fun i => koggeStoneInnerMany (p i) (g i)) st
      (fun r st' => IsBShares r (l.map fun v => Bin.ksPlain v.1 v.2 k) ∧ Corr ty st') := by
  unfold koggeStoneInnerMany
  rw [log2_eq hd]
  refine Spec.bind (Spec.foldlM (f := fun _ => koggeStoneRoundMany)
    (s := fun i => (p i, g i)) (v := l) (I := Corr ty)
    (step := fun l i => l.map fun v => Bin.ksRound k v i)
    (Rel := fun (s : PartyID → List (Share (BitVec k)) × List (Share (BitVec k)))
      (v : List (BitVec k × BitVec k)) =>
      IsBShares (fun i => (s i).1) (v.map Prod.fst) ∧ IsBShares (fun i => (s i).2) (v.map Prod.snd))
    ?_ ⟨hp, hg⟩ hst) ?_
  · rintro n - s l st ⟨h1, h2⟩ hst
    have a2 : IsBShares (fun i => (s i).2.map fun (p : Share (BitVec k)) => p.shl (2 ^ n)) _ :=
      Cols.map (f := fun _ (p : Share (BitVec k)) => p.shl (2 ^ n)) (g := fun v : BitVec k => v <<< 2 ^ n)
        h2 (fun x v h => h.shl _)
    have a3 : IsBShares (fun i => (s i).1.map fun (p : Share (BitVec k)) => p.shl (2 ^ n)) _ :=
      Cols.map (f := fun _ (p : Share (BitVec k)) => p.shl (2 ^ n)) (g := fun v : BitVec k => v <<< 2 ^ n)
        h1 (fun x v h => h.shl _)
    simp only [koggeStoneRoundMany, andTwiceMany_eq]
    refine Spec.bind (Bin.spec_andTwiceMany _ (Cols.zip h1 (Cols.zip a2 a3)) hst) ?_
    rintro r st' ⟨⟨h3, h4⟩, hst'⟩
    refine Spec.pure ⟨⟨?_, ?_⟩, hst'⟩
    · have := Cols.zipWith (f := fun _ _ (r : Share (BitVec k)) => r)
        (g := fun _ (v : BitVec k) => v) (W := IsBShare) h1 h4 (fun _ _ _ _ _ h => h)
      simp only [List.map_map, Bin.zip_map_self, Bin.zipWith_map_self, Function.comp_def, ksRound_eq] at this ⊢
      exact this
    · have := Cols.zipWith (f := fun _ (g r : Share (BitVec k)) => g.bxor r)
        (g := fun (u v : BitVec k) => u ^^^ v) (W := IsBShare) h2 h3
        (fun _ _ _ _ h h' => h.bxor h')
      simp only [List.map_map, Bin.zip_map_self, Bin.zipWith_map_self, Function.comp_def, ksRound_eq] at this ⊢
      exact this
  · rintro r st' ⟨⟨h1, h2⟩, hst'⟩
    refine Spec.pure ⟨?_, hst'⟩
    have e : ∀ n (l : List (BitVec k × BitVec k)), (List.range n).foldl
        (fun l i => l.map fun v => Bin.ksRound k v i) l =
        l.map fun v => (List.range n).foldl (Bin.ksRound k) v := by
      intro n
      induction n with
      | zero => intro l; simp
      | succ n ih =>
        intro l
        simp only [List.range_succ, List.foldl_append, List.foldl_cons, List.foldl_nil, ih,
          List.map_map, Function.comp_def]
    rw [e] at h2
    have := Cols.zipWith (f := fun _ (g s : Share (BitVec k)) => (g.shl 1).bxor s)
        (g := fun (u v : BitVec k) => u <<< 1 ^^^ v) (W := IsBShare) h2 hp
        (fun _ _ _ _ h h' => (h.shl 1).bxor h')
    simp only [List.map_map, Bin.zip_map_self, Bin.zipWith_map_self, Function.comp_def] at this ⊢
    exact this

theorem pow_pos' {d : Nat} (hd : k = 2 ^ d) : 0 < k := by rw [hd]; exact Nat.two_pow_pos d

theorem spec_lowDepthBinaryAdd {d : Nat} (hd : k = 2 ^ d) {x y : PartyID → Share (BitVec k)}
    {v u : BitVec k} (hx : IsBShare x v) (hy : IsBShare y u) (hst : Corr ty st) :
    Spec (M := M) (fun i => lowDepthBinaryAdd (x i) (y i)) st
      (fun r st' => IsBShare r (v + u) ∧ Corr ty st') := by
  simp only [lowDepthBinaryAdd, and_eq]
  refine Spec.bind (Bin.spec_and hx hy hst) ?_
  rintro g st' ⟨hg, hst'⟩
  have := spec_koggeStoneInner (M := M) hd (hx.bxor hy) hg hst'
  rw [Bin.ks_add v u k (pow_pos' hd) v.isLt u.isLt] at this
  exact this

theorem spec_lowDepthBinaryAddMany {d : Nat} (hd : k = 2 ^ d) {x y : PartyID → List (Share (BitVec k))}
    {l : List (BitVec k × BitVec k)}
    (hx : IsBShares x (l.map Prod.fst)) (hy : IsBShares y (l.map Prod.snd)) (hst : Corr ty st) :
    Spec (M := M) (fun i => lowDepthBinaryAddMany (x i) (y i)) st
      (fun r st' => IsBShares r (l.map fun v => v.1 + v.2) ∧ Corr ty st') := by
  simp only [lowDepthBinaryAddMany, andVec_eq]
  refine Spec.bind (Bin.spec_andVec hx hy hst) ?_
  rintro g st' ⟨hg, hst'⟩
  have h1 : IsBShares (fun i => List.zipWith Share.bxor (x i) (y i))
      ((l.map fun v => (v.1 ^^^ v.2, v.1 &&& v.2)).map Prod.fst) := by
    have := Cols.zipWith (f := fun _ (g r : Share (BitVec k)) => g.bxor r)
        (g := fun (u v : BitVec k) => u ^^^ v) (W := IsBShare) hx hy
        (fun _ _ _ _ h h' => h.bxor h')
    simp only [List.map_map, Bin.zipWith_map_self, Function.comp_def] at this ⊢
    exact this
  have h2 : IsBShares g ((l.map fun v => (v.1 ^^^ v.2, v.1 &&& v.2)).map Prod.snd) := by
    simp only [List.map_map, Bin.zipWith_map_self, Function.comp_def] at hg ⊢
    exact hg
  have := spec_koggeStoneInnerMany (M := M) hd h1 h2 hst'
  simp only [List.map_map, Function.comp_def, Bin.ks_add _ _ k (pow_pos' hd) (BitVec.isLt _) (BitVec.isLt _)] at this
  exact this

theorem spec_subWithCarry {d : Nat} (hd : k = 2 ^ d) {x y : PartyID → Share (BitVec k)}
    {v u : BitVec k} (hx : IsBShare x v) (hy : IsBShare y u) (hst : Corr ty st) :
    Spec (M := M) (fun i => subWithCarry (x i) (y i)) st
      (fun r st' => (IsBShare (fun i => (r i).1) (v - u) ∧
        IsBShare (fun i => (r i).2) (BitVec.ofBool (decide (u.toNat ≤ v.toNat)))) ∧ Corr ty st') := by
  simp only [subWithCarry, and_eq]
  refine Spec.bind (Bin.spec_and hx hy.bnot hst) ?_
  rintro g st' ⟨hg, hst'⟩
  refine Spec.bind (spec_koggeStoneInnerWithCarry hd (hx.bxor hy.bnot)
    (hg.bxor ((hx.bxor hy.bnot).andMask 1#k)) hst') ?_
  rintro r st2 ⟨⟨h1, h2⟩, hst2⟩
  refine Spec.bind (spec_stateId hst2) ?_
  rintro _ _ ⟨rfl, rfl⟩
  refine Spec.pure ⟨⟨?_, ?_⟩, hst2⟩
  · have := h1.xorPublic 1#k
    rw [Bin.ks_add_one v (~~~u) k (pow_pos' hd) v.isLt (BitVec.isLt _), BitVec.add_assoc,
      ← BitVec.neg_eq_not_add, ← BitVec.sub_eq_add_neg] at this
    exact this
  · rw [carry_sub _ _ (pow_pos' hd)] at h2
    exact h2

theorem spec_subFromConstWithCarry {d : Nat} (hd : k = 2 ^ d) (v : BitVec k)
    {y : PartyID → Share (BitVec k)} {u : BitVec k} (hy : IsBShare y u) (hst : Corr ty st) :
    Spec (M := M) (fun i => subFromConstWithCarry v (y i)) st
      (fun r st' => (IsBShare (fun i => (r i).1) (v - u) ∧
        IsBShare (fun i => (r i).2) (BitVec.ofBool (decide (u.toNat ≤ v.toNat)))) ∧ Corr ty st') := by
  unfold subFromConstWithCarry
  refine Spec.bind (spec_stateId hst) ?_
  rintro _ _ ⟨rfl, rfl⟩
  refine Spec.bind (spec_koggeStoneInnerWithCarry hd (hy.bnot.xorPublic v)
    ((hy.bnot.andMask v).bxor ((hy.bnot.xorPublic v).andMask 1#k)) hst) ?_
  rintro r st2 ⟨⟨h1, h2⟩, hst2⟩
  refine Spec.pure ⟨⟨?_, ?_⟩, hst2⟩
  · have := h1.xorPublic 1#k
    rw [BitVec.xor_comm (~~~u) v, BitVec.and_comm (~~~u) v,
      Bin.ks_add_one v (~~~u) k (pow_pos' hd) v.isLt (BitVec.isLt _), BitVec.add_assoc,
      ← BitVec.neg_eq_not_add, ← BitVec.sub_eq_add_neg] at this
    exact this
  · rw [BitVec.xor_comm (~~~u) v, BitVec.and_comm (~~~u) v, carry_sub _ _ (pow_pos' hd)] at h2
    exact h2

theorem spec_subByConstWithCarry {d : Nat} (hd : k = 2 ^ d) {x : PartyID → Share (BitVec k)}
    {v : BitVec k} (u : BitVec k) (hx : IsBShare x v) (hst : Corr ty st) :
    Spec (M := M) (fun i => subByConstWithCarry (x i) u) st
      (fun r st' => (IsBShare (fun i => (r i).1) (v - u) ∧
        IsBShare (fun i => (r i).2) (BitVec.ofBool (decide (u.toNat ≤ v.toNat)))) ∧ Corr ty st') := by
  unfold subByConstWithCarry
  refine Spec.bind (spec_stateId hst) ?_
  rintro _ _ ⟨rfl, rfl⟩
  refine Spec.bind (spec_koggeStoneInnerWithCarry hd (hx.xorPublic _) (hx.andMask _) hst) ?_
  rintro r st2 ⟨⟨h1, h2⟩, hst2⟩
  refine Spec.pure ⟨⟨?_, ?_⟩, hst2⟩
  · rw [Bin.ks_add v _ k (pow_pos' hd) v.isLt (BitVec.isLt _), ← BitVec.neg_eq_not_add,
      ← BitVec.sub_eq_add_neg] at h1
    exact h1
  · rw [carry_sub_const _ _ (pow_pos' hd)] at h2
    by_cases hu : u = 0#k
    · subst hu
      simp only [if_true]
      have := h2.bnot
      simpa using this
    · simp only [hu, if_false]
      have : u.toNat ≠ 0 := by
        intro h
        exact hu (BitVec.eq_of_toNat_eq (by simpa using h))
      simpa [this] using h2

end Detail

/-! ### Conversions -/

section Conversion

theorem isBShare_a2bOther {x : PartyID → Share (BitVec k)} {v : BitVec k} (hx : IsShare x v) :
    IsBShare (fun i => a2bOther i (x i)) (x ID2).a := by
  refine ⟨fun i => ?_, ?_⟩
  · cases i <;> simp [a2bOther, Share.bzero, hx.b0]
  · simp [a2bOther, Share.bzero]

variable [Sample R (BitVec k)] [UintCodec M k]

theorem spec_a2b {d : Nat} (hd : k = 2 ^ d) {x : PartyID → Share (BitVec k)} {v : BitVec k}
    (hx : IsShare x v) (hst : Corr ty st) :
    Spec (M := M) (fun i => a2b (x i)) st (fun r st' => IsBShare r v ∧ Corr ty st') := by
  unfold a2b
  rw [maskBits_eq]
  refine Spec.bind (Bin.spec_maskBits k hst) ?_
  rintro m st' ⟨⟨r, rfl⟩, hst'⟩
  refine Spec.bind (spec_stateId hst') ?_
  rintro _ _ ⟨rfl, rfl⟩
  refine Spec.bind spec_reshare ?_
  rintro z st'' ⟨rfl, rfl⟩
  have h1 : IsBShare (fun i => Share.mk (a2bOwn i (x i) (r i ^^^ r i.prev))
      (a2bOwn i.prev (x i.prev) (r i.prev ^^^ r i.prev.prev))) ((x ID1).a + (x ID1).b) := by
    refine isBShare_mk (x := fun i => a2bOwn i (x i) (r i ^^^ r i.prev)) ?_
    simp only [a2bOwn, ID0_prev, ID1_prev, ID2_prev]
    exact xor_own _ _ _ _
  have key := spec_lowDepthBinaryAdd (M := M) hd h1 (isBShare_a2bOther hx) hst'
  have e : (x ID1).a + (x ID1).b + (x ID2).a = v := by
    rw [hx.b1, ← hx.2]; ring
  rw [e] at key
  exact key

theorem spec_a2bMany {d : Nat} (hd : k = 2 ^ d) {x : PartyID → List (Share (BitVec k))}
    {vs : List (BitVec k)} (hx : IsShares x vs) (hst : Corr ty st) :
    Spec (M := M) (fun i => a2bMany (x i)) st (fun r st' => IsBShares r vs ∧ Corr ty st') := by
  unfold a2bMany
  rw [maskBits_eq]
  refine Spec.bind (spec_maskBitsMany vs.length k (Cols.length hx) hst) ?_
  rintro m st' ⟨⟨r, hr, rfl⟩, hst'⟩
  refine Spec.bind (spec_stateId hst') ?_
  rintro _ _ ⟨rfl, rfl⟩
  refine Spec.bind spec_reshareMany ?_
  rintro z st'' ⟨rfl, rfl⟩
  obtain ⟨l, rfl, hl⟩ := hx
  have hlen := hl.length_eq
  have h1 : IsBShares (fun i => List.zipWith Share.mk
      (List.zipWith (a2bOwn i) (l.map (· i)) (r.map fun m => m i ^^^ m i.prev))
      (List.zipWith (a2bOwn i.prev) (l.map (· i.prev)) (r.map fun m => m i.prev ^^^ m i.prev.prev)))
      ((l.map fun x => ((x ID1).a + (x ID1).b, (x ID2).a)).map Prod.fst) := by
    refine Cols.of_get l.length (by intro i; simp [hlen, hr]) (by simp) ?_
    intro k hk
    simp only [List.getElem_zipWith, List.getElem_map]
    refine isBShare_mk (x := fun i => a2bOwn i (l[k] i) (r[k] i ^^^ r[k] i.prev)) ?_
    simp only [a2bOwn, ID0_prev, ID1_prev, ID2_prev]
    exact xor_own _ _ _ _
  have h2 : IsBShares (fun i => (l.map (· i)).map (a2bOther i))
      ((l.map fun x => ((x ID1).a + (x ID1).b, (x ID2).a)).map Prod.snd) := by
    refine Cols.of_get l.length (by intro i; simp) (by simp) ?_
    intro k hk
    simp only [List.getElem_map]
    exact isBShare_a2bOther ((List.forall₂_iff_get.1 hl).2 k hk (by omega))
  refine (spec_lowDepthBinaryAddMany (M := M) hd h1 h2 hst').mono ?_
  rintro r st'' ⟨hr, hst''⟩
  refine ⟨?_, hst''⟩
  convert hr using 1
  apply List.ext_getElem
  · simp [hlen]
  · intro k hk hk'
    simp only [List.getElem_map]
    have hx := (List.forall₂_iff_get.1 hl).2 k (by simpa using hk') (by simpa using hk)
    simp only [List.get_eq_getElem] at hx
    rw [← hx.2, hx.b1]
    ring

omit [UintCodec M k] in
theorem spec_b2aKeys {r : PartyID → BitVec k} (hst : Corr ty st) :
    Spec (M := M) (fun i => b2aKeys i (r i)) st (fun res st' =>
      (∃ c2 c3 : BitVec k, res = three (r ID0, ⟨0, -c3⟩) (r ID1, ⟨-c2, 0⟩)
        ((c2 + c3) ^^^ r ID2, ⟨-c3, -c2⟩)) ∧ Corr ty st') := by
  refine Spec3 ?_
  simp only [b2aKeys, bitcomp1Elems, bitcomp2Elems, withRngs?, BitComp.random3, MPC.bind_apply, hst.bc1a,
    hst.bc1b, hst.bc1c, hst.bc2a, hst.bc2b, hst.bc2c, Option.map_some, Prog.ret_bind, MPC.pure_apply,
    W3_ret]
  refine ⟨⟨(Sample.sample (st ID1).rngs.bitcomp1.rng2).1 + (Sample.sample (st ID2).rngs.bitcomp1.rng2).1 +
      (Sample.sample (st ID1).rngs.bitcomp1.rng1).1,
    (Sample.sample (st ID2).rngs.bitcomp2.rng1).1 + (Sample.sample (st ID2).rngs.bitcomp2.rng2).1 +
      (Sample.sample (st ID0).rngs.bitcomp2.rng2).1, ?_⟩, ?_⟩
  · funext i
    cases i
    · simp only [three_0, Prod.mk.injEq, Share.mk.injEq, true_and]
      exact ⟨rfl, by ring⟩
    · simp only [three_1, Prod.mk.injEq, Share.mk.injEq, true_and, and_true]
      exact ⟨by ring, rfl⟩
    · rfl
  · constructor <;> (try intro i) <;> (try cases i) <;>
      simp [hst.id, hst.rand, hst.a2b, hst.bc1b, hst.bc2a]

omit [Sample R (BitVec k)] in
theorem spec_b2aOpen {z : PartyID → Share (BitVec k)} {u : BitVec k} (hz : IsBShare z u)
    (res : PartyID → Share (BitVec k)) :
    Spec (M := M) (fun i => b2aOpen i (z i) (res i)) st (fun r st' =>
      (r = three ⟨u, (res ID0).b⟩ ⟨(res ID1).a, u⟩ (res ID2)) ∧ st' = st) := by
  have e0 : (z ID0).a ^^^ (z ID2).a ^^^ (z ID1).a = u := by rw [xor_open0]; exact hz.2
  have e1 : (z ID1).a ^^^ (z ID0).a ^^^ (z ID2).a = u := by rw [xor_open1]; exact hz.2
  refine Spec3 ?_
  simp [b2aOpen, exactlyOne, sendMany, recvMany, MPC.recv_apply,
    recvPrev, recvFrom, sendNext, sendTo, hz.b0, hz.b1, hz.b2, e0, e1]
  exact three_eta _

theorem spec_b2a {d : Nat} (hd : k = 2 ^ d) {x : PartyID → Share (BitVec k)} {v : BitVec k}
    (hx : IsBShare x v) (hst : Corr ty st) :
    Spec (M := M) (fun i => b2a (x i)) st (fun r st' => IsShare r v ∧ Corr ty st') := by
  unfold b2a
  rw [maskBits_eq]
  refine Spec.bind (Bin.spec_maskBits k hst) ?_
  rintro m st' ⟨⟨r, rfl⟩, hst'⟩
  refine Spec.bind (spec_stateId hst') ?_
  rintro _ _ ⟨rfl, rfl⟩
  refine Spec.bind (spec_b2aKeys hst') ?_
  rintro _ st'' ⟨⟨c2, c3, rfl⟩, hst''⟩
  refine Spec.bind spec_reshare ?_
  rintro z st3 ⟨rfl, rfl⟩
  have hy : IsBShare (fun i => Share.mk
      ((three (r ID0 ^^^ r ID2, Share.mk (0 : BitVec k) (-c3)) (r ID1 ^^^ r ID0, ⟨-c2, 0⟩)
        ((c2 + c3) ^^^ (r ID2 ^^^ r ID1), ⟨-c3, -c2⟩) : PartyID → _) i).1
      ((three (r ID0 ^^^ r ID2, Share.mk (0 : BitVec k) (-c3)) (r ID1 ^^^ r ID0, ⟨-c2, 0⟩)
        ((c2 + c3) ^^^ (r ID2 ^^^ r ID1), ⟨-c3, -c2⟩) : PartyID → _) i.prev).1)
      (c2 + c3) := by
    refine isBShare_mk (x := fun i => ((three (r ID0 ^^^ r ID2, Share.mk (0 : BitVec k) (-c3)) (r ID1 ^^^ r ID0, ⟨-c2, 0⟩)
        ((c2 + c3) ^^^ (r ID2 ^^^ r ID1), ⟨-c3, -c2⟩) : PartyID → _) i).1) ?_
    exact xor_own2 _ _ _ _
  refine Spec.bind (spec_lowDepthBinaryAdd (M := M) hd hx hy hst'') ?_
  rintro z st4 ⟨hz, hst4⟩
  refine (spec_b2aOpen hz _).mono ?_
  rintro r st5 ⟨rfl, rfl⟩
  refine ⟨⟨?_, ?_⟩, hst4⟩
  · intro i; cases i <;> rfl
  · simp only [three_0, three_1, three_2]
    ring

omit [Sample R (BitVec k)] [UintCodec M k] in
theorem b2aFill_eq (id : PartyID) (l : List (Share (BitVec k) × Share (BitVec k) × BitVec k)) :
    b2aFill id (l.map fun t => t.1) (l.map fun t => t.2.1) (l.map fun t => t.2.2) =
      l.map (fun t => match id with
        | ID0 => { t.1 with a := t.2.1.a ^^^ t.2.1.b ^^^ t.2.2 }
        | _ => { t.1 with b := t.2.1.a ^^^ t.2.1.b ^^^ t.2.2 }) := by
  induction l with
  | nil => rfl
  | cons t l ih => cases id <;> simp only [List.map_cons, b2aFill, ih]

/-- One position of a vector when `b2a_many` is about to open the masked values. -/
def B2AMid (t : PartyID → (BitVec k × Share (BitVec k)) × Share (BitVec k)) (v : BitVec k) : Prop :=
  ∃ (c2 c3 : BitVec k), IsBShare (fun i => (t i).2) (v + (c2 + c3)) ∧
    (t ID0).1.2.b = -c3 ∧ (t ID1).1.2.a = -c2 ∧ (t ID2).1.2 = ⟨-c3, -c2⟩

omit [Sample R (BitVec k)] in
theorem spec_b2aOpenMany {l : List (PartyID → (BitVec k × Share (BitVec k)) × Share (BitVec k))}
    {vs : List (BitVec k)} (hl : List.Forall₂ B2AMid l vs) :
    Spec (M := M) (fun i => b2aOpenMany i (l.map fun t => (t i).2) (l.map fun t => (t i).1.2)) st
      (fun r st' => IsShares r vs ∧ st' = st) := by
  have f0 := b2aFill_eq ID0 (l.map fun t => ((t ID0).1.2, (t ID0).2, (t ID2).2.b))
  have f1 := b2aFill_eq ID1 (l.map fun t => ((t ID1).1.2, (t ID1).2, (t ID0).2.b))
  simp only [List.map_map, Function.comp_def] at f0 f1
  refine Spec3 ?_
  simp [b2aOpenMany, sendNextMany, recvPrevMany, sendMany, recvMany, MPC.recv_apply, List.map_map,
    Function.comp_def, f0, f1]
  refine ⟨?_, three_eta _⟩
  clear f0 f1
  have hlen := hl.length_eq
  refine Cols.of_get l.length (by intro i; cases i <;> simp) (by omega) ?_
  intro n hk
  obtain ⟨c2, c3, hz, e0, e1, e2⟩ := (List.forall₂_iff_get.1 hl).2 n hk (by omega)
  simp only [List.get_eq_getElem] at hz e0 e1 e2
  have o0 : (l[n] ID0).2.a ^^^ (l[n] ID0).2.b ^^^ (l[n] ID2).2.b = vs[n] + (c2 + c3) := by
    rw [hz.b0, hz.b2, xor_open0]; exact hz.2
  have o1 : (l[n] ID1).2.a ^^^ (l[n] ID1).2.b ^^^ (l[n] ID0).2.b = vs[n] + (c2 + c3) := by
    rw [hz.b1, hz.b0, xor_open1]; exact hz.2
  refine ⟨?_, ?_⟩
  · intro i; cases i <;> simp [o0, o1, e0, e1, e2]
  · simp only [List.getElem_map, three, e1, e2, o0]
    ring

theorem spec_b2aMany {d : Nat} (hd : k = 2 ^ d) {x : PartyID → List (Share (BitVec k))}
    {vs : List (BitVec k)} (hx : IsBShares x vs) (hst : Corr ty st) :
    Spec (M := M) (fun i => b2aMany (x i)) st (fun r st' => IsShares r vs ∧ Corr ty st') := by
  unfold b2aMany
  rw [maskBits_eq]
  refine Spec.bind (spec_maskBitsMany vs.length k (Cols.length hx) hst) ?_
  rintro m st' ⟨⟨r, hr, rfl⟩, hst'⟩
  refine Spec.bind (spec_stateId hst') ?_
  rintro _ _ ⟨rfl, rfl⟩
  have hc : Cols (fun (m : PartyID → BitVec k) (r : PartyID → BitVec k) =>
      m = fun i => r i ^^^ r i.prev) (fun i => r.map fun m => m i ^^^ m i.prev) r :=
    ⟨r.map fun m i => m i ^^^ m i.prev, by simp [Function.comp_def], by
      rw [List.forall₂_map_left_iff, List.forall₂_same]; intro x _; rfl⟩
  refine Spec.bind (Spec.mapCols (f := fun i r => b2aKeys i r)
    (Q := fun (res : PartyID → BitVec k × Share (BitVec k)) (r : PartyID → BitVec k) =>
      ∃ c2 c3 : BitVec k, res = three (r ID0 ^^^ r ID2, ⟨0, -c3⟩) (r ID1 ^^^ r ID0, ⟨-c2, 0⟩)
        ((c2 + c3) ^^^ (r ID2 ^^^ r ID1), ⟨-c3, -c2⟩)) (g := id) hc ?_ hst') ?_
  · rintro m r st rfl hst
    exact spec_b2aKeys hst
  rintro yr st'' ⟨⟨l, rfl, hl⟩, hst''⟩
  rw [List.map_id] at hl
  have hlr := hl.length_eq
  refine spec_sendRecvMany (M := M) (x := fun i => (l.map (· i)).map Prod.fst) ?_
  obtain ⟨c, hcl⟩ : ∃ c : List (BitVec k × BitVec k), List.Forall₂ (fun (res : PartyID → BitVec k × Share (BitVec k))
      (q : (PartyID → BitVec k) × (BitVec k × BitVec k)) =>
        res = three (q.1 ID0 ^^^ q.1 ID2, ⟨0, -q.2.2⟩) (q.1 ID1 ^^^ q.1 ID0, ⟨-q.2.1, 0⟩)
        ((q.2.1 + q.2.2) ^^^ (q.1 ID2 ^^^ q.1 ID1), ⟨-q.2.2, -q.2.1⟩)) l (r.zip c) ∧
        c.length = l.length := by
    clear hlr hc hr
    induction hl with
    | nil => exact ⟨[], .nil, rfl⟩
    | cons h _ ih =>
      obtain ⟨c2, c3, h⟩ := h
      obtain ⟨c, hc, hlen⟩ := ih
      exact ⟨(c2, c3) :: c, .cons h hc, by simp [hlen]⟩
  obtain ⟨hcl, hclen⟩ := hcl
  have hget : ∀ n (h : n < l.length), l[n] = three (r[n] ID0 ^^^ r[n] ID2, ⟨0, -c[n].2⟩)
      (r[n] ID1 ^^^ r[n] ID0, ⟨-c[n].1, 0⟩)
      ((c[n].1 + c[n].2) ^^^ (r[n] ID2 ^^^ r[n] ID1), ⟨-c[n].2, -c[n].1⟩) := by
    intro n h
    have := (List.forall₂_iff_get.1 hcl).2 n h (by simp; omega)
    simpa using this
  have hy : IsBShares (fun i => List.zipWith Share.mk ((l.map (· i)).map Prod.fst)
      ((l.map (· i.prev)).map Prod.fst))
      ((vs.zip (c.map fun q => q.1 + q.2)).map Prod.snd) := by
    refine Cols.of_get l.length (by intro i; simp) (by simp; omega) ?_
    intro n hk
    simp only [List.getElem_zipWith, List.getElem_map, List.getElem_zip]
    refine isBShare_mk (x := fun i => (l[n] i).1) ?_
    rw [hget n hk]
    exact xor_own2 _ _ _ _
  have hx' : IsBShares x ((vs.zip (c.map fun q => q.1 + q.2)).map Prod.fst) := by
    convert hx using 1
    rw [List.map_fst_zip]
    simp; omega
  refine Spec.bind (spec_lowDepthBinaryAddMany (M := M) hd hx' hy hst'') ?_
  rintro z st4 ⟨⟨zs, rfl, hzs⟩, hst4⟩
  have hzl := hzs.length_eq
  simp only [List.length_map, List.length_zip] at hzl
  have e1 : ∀ i : PartyID, zs.map (· i) = (List.zipWith (fun a b (i : PartyID) => (a i, b i)) l zs).map
      fun t => (t i).2 := by
    intro i
    apply List.ext_getElem
    · simp; omega
    · intro n h1 h2; simp
  have e2 : ∀ i : PartyID, (l.map (· i)).map Prod.snd =
      (List.zipWith (fun a b (i : PartyID) => (a i, b i)) l zs).map fun t => (t i).1.2 := by
    intro i
    apply List.ext_getElem
    · simp; omega
    · intro n h1 h2; simp
  simp only [e1, e2]
  refine (spec_b2aOpenMany (vs := vs) ?_).mono ?_
  · rw [List.forall₂_iff_get]
    refine ⟨by simp; omega, ?_⟩
    intro n h1 h2
    have hn : n < l.length := by simp at h1; omega
    have hz := (List.forall₂_iff_get.1 hzs).2 n (by simp at h1; omega) (by simp; omega)
    simp only [List.get_eq_getElem, List.getElem_map, List.getElem_zip] at hz
    simp only [List.get_eq_getElem, List.getElem_zipWith]
    refine ⟨c[n].1, c[n].2, hz, ?_, ?_, ?_⟩ <;> rw [hget n hn] <;> rfl
  · rintro r st5 ⟨h, rfl⟩
    exact ⟨h, hst4⟩

end Conversion

/-! ### Bit injection -/

section Inject

variable {F : Type} [CommRing F] [Sample R F] [Codec M (List F)]

/-- The arithmetic behind bit injection. -/
theorem inject_sum (X Y m0 m1 m2 : F) (hm : m0 + m1 + m2 = 0) :
    injectA Y m0 + (m1 + X) + injectC Y (m1 + X) m2 = X + Y - 2 * (X * Y) := by
  unfold injectA injectC
  linear_combination (1 - 2 * Y) * hm

theorem spec_injectOne (ya yab yb : PartyID → F) (h : ya ID2 = yb ID0) (hst : Corr ty st) :
    Spec (M := M) (fun i => injectOne (ya i) (yab i) (yb i)) st (fun r st' =>
      IsShare r (yab ID1 + yb ID0 - 2 * (yab ID1 * yb ID0)) ∧ Corr ty st') := by
  refine Spec3 ?_
  simp [injectOne, stateId, hst.id, maskElem, withRand, sendNext, recvPrev, sendTo, recvFrom,
    sendMany, recvMany, exactlyOne, MPC.recv_apply, Rep3Rand.masking,
    Rep3Rand.randomPair, hst.rand]
  refine ⟨⟨?_, ?_⟩, ?_⟩
  · intro i; cases i <;> rfl
  · have := inject_sum (yab ID1) (yb ID0)
      ((Sample.sample (α := F) (st ID0).rngs.rand.rng1).1 - (Sample.sample (st ID2).rngs.rand.rng1).1)
      ((Sample.sample (st ID1).rngs.rand.rng1).1 - (Sample.sample (st ID0).rngs.rand.rng1).1)
      ((Sample.sample (st ID2).rngs.rand.rng1).1 - (Sample.sample (st ID1).rngs.rand.rng1).1) (by ring)
    simpa [h] using this
  · constructor <;> (try intro i) <;> (try cases i) <;>
      simp [hst.id, hst.rand, hst.a2b, hst.bc1a, hst.bc1b, hst.bc1c, hst.bc2a, hst.bc2b, hst.bc2c]

omit [Codec M (List F)] in
theorem mapM_mask {α β : Type} (f : α → F → β) (l : List α) (i : PartyID) (s : Rep3State R) :
    (l.mapM fun el => (maskElem (F := F) >>= fun m => pure (f el m) : Rep3M R M β)) i s =
    .ret (List.zipWith f l (List.zipWith (· - ·) (sampleN s.rngs.rand.rng1 l.length).1
        (sampleN s.rngs.rand.rng2 l.length).1),
      setRand s ⟨(sampleN (α := F) s.rngs.rand.rng1 l.length).2,
        (sampleN (α := F) s.rngs.rand.rng2 l.length).2⟩) := by
  induction l generalizing s with
  | nil => rfl
  | cons x xs ih =>
    simp only [List.mapM_cons, MPC.bind_apply, maskElem, withRand, MPC.modifyGet_apply, Prog.ret_bind,
      MPC.pure_apply] at ih ⊢
    rw [ih]
    rfl

theorem spec_injectMany (l : List (PartyID → F × F × F)) (h : ∀ x ∈ l, (x ID2).1 = (x ID0).2.2)
    (hst : Corr ty st) :
    Spec (M := M) (fun i => injectMany (l.map (· i))) st (fun r st' =>
      IsShares r (l.map fun x => (x ID1).2.1 + (x ID0).2.2 - 2 * ((x ID1).2.1 * (x ID0).2.2)) ∧
        Corr ty st') := by
  refine Spec3 ?_
  simp [injectMany, -bind_pure_comp, -List.mapM_map, stateId, hst.id, sendNextMany, recvPrevMany, sendMany,
    recvMany, MPC.recv_apply, mapM_mask, hst.rand]
  refine ⟨?_, ?_⟩
  · generalize hr : (fun i => (sampleN (α := F) (st i).rngs.rand.rng1 l.length).1) = r
    have hr' : ∀ i, (sampleN (α := F) (st i).rngs.rand.rng1 l.length).1 = r i := fun i => by
      rw [← hr]
    have hrl : ∀ i, (r i).length = l.length := fun i => by rw [← hr' i]; simp
    simp only [hr']
    refine Cols.of_get l.length (by intro i; cases i <;> simp [hrl]) (by simp) ?_
    intro n hk
    refine ⟨?_, ?_⟩
    · intro i; cases i <;> simp
    · have h3 := inject_sum (l[n] ID1).2.1 (l[n] ID0).2.2
        ((r ID0)[n]'(by rw [hrl]; omega) - (r ID2)[n]'(by rw [hrl]; omega))
        ((r ID1)[n]'(by rw [hrl]; omega) - (r ID0)[n]'(by rw [hrl]; omega))
        ((r ID2)[n]'(by rw [hrl]; omega) - (r ID1)[n]'(by rw [hrl]; omega)) (by ring)
      simpa [h l[n] (List.getElem_mem hk)] using h3
  · constructor <;> (try intro i) <;> (try cases i) <;>
      simp [setRand, hst.id, hst.rand, hst.a2b, hst.bc1a, hst.bc1b, hst.bc1c, hst.bc2a, hst.bc2b, hst.bc2c]

omit [Sample R F] [Codec M (List F)] in
theorem bitTo_xor (x y : BitVec 1) : (bitTo x + bitTo y - 2 * (bitTo x * bitTo y) : F) = bitTo (x ^^^ y) := by
  have h : ∀ z : BitVec 1, z = 0#1 ∨ z = 1#1 := by decide
  rcases h x with rfl | rfl <;> rcases h y with rfl | rfl <;> simp [bitTo]
  ring

omit [Sample R F] [Codec M (List F)] in
theorem bits_xor {x y : BitVec k} (hx : x.toNat < 2) (hy : y.toNat < 2) :
    x + y - 2 * (x * y) = x ^^^ y := by
  have e : ∀ z : BitVec k, z.toNat < 2 → z = 0 ∨ z = 1 := by
    intro z hz
    have : z.toNat = 0 ∨ z.toNat = 1 := by omega
    rcases this with h | h
    · exact .inl (BitVec.eq_of_toNat_eq (by simpa using h))
    · right
      apply BitVec.eq_of_toNat_eq
      have := z.isLt
      rw [h] at this ⊢
      show 1 = (1#k).toNat
      rw [BitVec.toNat_ofNat, Nat.mod_eq_of_lt this]
  rcases e x hx with rfl | rfl <;> rcases e y hy with rfl | rfl
  · show _ = 0#k ^^^ 0#k
    simp
  · show _ = 0#k ^^^ 1
    simp
  · show _ = 1 ^^^ 0#k
    simp
  · rw [BitVec.xor_self]
    show _ = (0 : BitVec k)
    ring

end Inject

section InjectRing

variable [Sample R (BitVec k)] [UintCodec M k]

theorem spec_bitInject {x : PartyID → Share (BitVec k)} {b : Bool} (hx : IsBitShare x b)
    (hst : Corr ty st) :
    Spec (M := M) (fun i => bitInject (x i)) st (fun r st' =>
      IsShare r (if b then 1#k else 0#k) ∧ Corr ty st') := by
  have e : (fun i => bitInject (x i) : PartyID → Rep3M R M _) =
      fun i => injectOne (x i).a ((x i).a ^^^ (x i).b) (x i).b := by
    funext i
    simp [bitInject, hx.isBit i]
  rw [e]
  have key := spec_injectOne (M := M) (fun i => (x i).a) (fun i => (x i).a ^^^ (x i).b) (fun i => (x i).b)
    hx.1.b0.symm hst
  rw [bits_xor ?_ (hx.2 ID0).2, hx.1.b1, hx.1.b0, xor_open1, hx.1.2] at key
  · exact key
  · rw [BitVec.toNat_xor]
    exact Nat.xor_lt_two_pow (n := 1) (hx.2 ID1).1 (hx.2 ID1).2

theorem spec_bitInjectMany {x : PartyID → List (Share (BitVec k))} {bs : List Bool}
    (hx : IsBitShares x bs) (hst : Corr ty st) :
    Spec (M := M) (fun i => bitInjectMany (x i)) st (fun r st' =>
      IsShares r (bs.map fun b => if b then 1#k else 0#k) ∧ Corr ty st') := by
  obtain ⟨l, rfl, hl⟩ := hx
  have hall : ∀ i, (l.map (· i)).all (fun s => Uint.isBit s.a) = true ∧
      (l.map (· i)).all (fun s => Uint.isBit s.b) = true := by
    intro i
    clear hst
    induction hl with
    | nil => simp
    | cons h _ ih =>
      simp at ih
      simp [h.isBit i]
      exact ih
  have e : (fun i => bitInjectMany (l.map (· i)) : PartyID → Rep3M R M _) = fun i =>
      injectMany ((l.map fun x (i : PartyID) => ((x i).a, (x i).a ^^^ (x i).b, (x i).b)).map (· i)) := by
    funext i
    rw [bitInjectMany, if_neg (by simp only [(hall i).1]; simp), if_neg (by simp only [(hall i).2]; simp),
      List.map_map, List.map_map]
    rfl
  rw [e]
  have hget : ∀ x ∈ l, ∃ b, IsBitShare x b := by
    intro x hx
    obtain ⟨n, hn, rfl⟩ := List.mem_iff_getElem.1 hx
    have := hl.length_eq
    exact ⟨_, (List.forall₂_iff_get.1 hl).2 n hn (by omega)⟩
  refine (spec_injectMany _ ?_ hst).mono ?_
  · intro y hy
    obtain ⟨x, hx, rfl⟩ := List.mem_map.1 hy
    obtain ⟨b, hb⟩ := hget x hx
    exact hb.1.b0.symm
  · rintro r st' ⟨hr, hst'⟩
    refine ⟨?_, hst'⟩
    convert hr using 1
    rw [List.map_map]
    apply List.ext_getElem
    · simp [hl.length_eq]
    · intro n h1 h2
      have hb := (List.forall₂_iff_get.1 hl).2 n (by simpa using h2) (by simpa using h1)
      simp only [List.get_eq_getElem] at hb
      simp only [List.getElem_map, Function.comp_apply]
      rw [bits_xor ?_ (hb.2 ID0).2, hb.1.b1, hb.1.b0, xor_open1, hb.1.2]
      rw [BitVec.toNat_xor]
      exact Nat.xor_lt_two_pow (n := 1) (hb.2 ID1).1 (hb.2 ID1).2

theorem spec_bitInjectFromBit {x : PartyID → Share (BitVec 1)} {v : BitVec 1} (hx : IsBShare x v)
    (hst : Corr ty st) :
    Spec (M := M) (fun i => bitInjectFromBit (k := k) (x i)) st (fun r st' =>
      IsShare r (bitTo v) ∧ Corr ty st') := by
  have key := spec_injectOne (M := M) (F := BitVec k) (fun i => bitTo (x i).a)
    (fun i => bitTo ((x i).a ^^^ (x i).b)) (fun i => bitTo (x i).b) (by simp only [hx.b0]) hst
  rw [bitTo_xor, hx.b1, hx.b0, xor_open1, hx.2] at key
  exact key

theorem spec_fromBitsMany {F : Type} [CommRing F] [Sample R F] [Codec M (List F)]
    {x : PartyID → List (Share (BitVec 1))} {vs : List (BitVec 1)}
    (hx : IsBShares x vs) (hst : Corr ty st) :
    Spec (M := M) (fun i => injectMany (F := F)
      ((x i).map fun s => (bitTo s.a, bitTo (s.a ^^^ s.b), bitTo s.b))) st (fun r st' =>
      IsShares r (vs.map bitTo) ∧ Corr ty st') := by
  obtain ⟨l, rfl, hl⟩ := hx
  have e : (fun i => injectMany (F := F)
      ((l.map (· i)).map fun s => (bitTo s.a, bitTo (s.a ^^^ s.b), bitTo s.b)) : PartyID → Rep3M R M _) =
      fun i => injectMany ((l.map fun x (i : PartyID) =>
        ((bitTo (x i).a, bitTo ((x i).a ^^^ (x i).b), bitTo (x i).b) : F × F × F)).map (· i)) := by
    funext i
    rw [List.map_map, List.map_map]
    rfl
  rw [e]
  refine (spec_injectMany _ ?_ hst).mono ?_
  · intro y hy
    obtain ⟨x, hx, rfl⟩ := List.mem_map.1 hy
    obtain ⟨n, hn, rfl⟩ := List.mem_iff_getElem.1 hx
    have := hl.length_eq
    have hb := (List.forall₂_iff_get.1 hl).2 n hn (by omega)
    simp only [List.get_eq_getElem] at hb
    simp only [hb.b0]
  · rintro r st' ⟨hr, hst'⟩
    refine ⟨?_, hst'⟩
    convert hr using 1
    rw [List.map_map]
    apply List.ext_getElem
    · simp [hl.length_eq]
    · intro n h1 h2
      have hb := (List.forall₂_iff_get.1 hl).2 n (by simpa using h2) (by simpa using h1)
      simp only [List.get_eq_getElem] at hb
      simp only [List.getElem_map, Function.comp_apply]
      rw [bitTo_xor, hb.b1, hb.b0, xor_open1, hb.2]

end InjectRing

/-! ### Comparisons -/

section Compare

variable [Sample R (BitVec k)] [UintCodec M k] [Yao.YaoRng R] [Yao.YaoNet M]

omit [Sample R (BitVec k)] [UintCodec M k] [Yao.YaoRng R] [Yao.YaoNet M] in
theorem pos_of_pow {d : Nat} (hd : k = 2 ^ d) : 0 < k := by rw [hd]; exact Nat.two_pow_pos d

theorem spec_a2bSelector {d : Nat} (hd : k = 2 ^ d) {x : PartyID → Share (BitVec k)} {v : BitVec k}
    (hx : IsShare x v) (hst : Corr ty st) :
    Spec (M := M) (fun i => a2bSelector (x i)) st (fun r st' => IsBShare r v ∧ Corr ty st') := by
  refine Spec.bind (spec_stateA2BType hst) ?_
  rintro _ _ ⟨rfl, rfl⟩
  cases ty with
  | direct => exact spec_a2b hd hx hst
  | yao => exact Yao.Gc.spec_a2y2bRing (pos_of_pow hd) hx hst

theorem spec_b2aSelector {d : Nat} (hd : k = 2 ^ d)
    (hH : ty = .yao → Yao.HashSeparates (Yao.YaoNet.hash M)) {x : PartyID → Share (BitVec k)} {v : BitVec k}
    (hx : IsBShare x v) (hst : Corr ty st) :
    Spec (M := M) (fun i => b2aSelector (x i)) st (fun r st' => IsShare r v ∧ Corr ty st') := by
  refine Spec.bind (spec_stateA2BType hst) ?_
  rintro _ _ ⟨rfl, rfl⟩
  cases ty with
  | direct => exact spec_b2a hd hx hst
  | yao => exact Yao.Gc.spec_b2y2aRing (pos_of_pow hd) (hH rfl) hx hst

theorem spec_ge {d : Nat} (hd : k = 2 ^ d) {x y : PartyID → Share (BitVec k)} {a b : BitVec k}
    (hx : IsShare x a) (hy : IsShare y b) (hst : Corr ty st) :
    Spec (M := M) (fun i => ge (x i) (y i)) st (fun r st' =>
      IsBShare r (BitVec.ofBool (decide (b.toNat ≤ a.toNat))) ∧ Corr ty st') := by
  refine Spec.bind (spec_a2bSelector hd hx hst) ?_
  rintro a' st1 ⟨ha, hst1⟩
  refine Spec.bind (spec_a2bSelector hd hy hst1) ?_
  rintro b' st2 ⟨hb, hst2⟩
  refine Spec.bind (spec_subWithCarry hd ha hb hst2) ?_
  rintro r st3 ⟨⟨-, hr⟩, hst3⟩
  exact Spec.pure ⟨hr, hst3⟩

theorem spec_unsignedGeConstLhs {d : Nat} (hd : k = 2 ^ d) (a : BitVec k)
    {y : PartyID → Share (BitVec k)} {b : BitVec k} (hy : IsShare y b) (hst : Corr ty st) :
    Spec (M := M) (fun i => unsignedGeConstLhs a (y i)) st (fun r st' =>
      IsBShare r (BitVec.ofBool (decide (b.toNat ≤ a.toNat))) ∧ Corr ty st') := by
  refine Spec.bind (spec_a2bSelector hd hy hst) ?_
  rintro b' st2 ⟨hb, hst2⟩
  refine Spec.bind (spec_subFromConstWithCarry hd a hb hst2) ?_
  rintro r st3 ⟨⟨-, hr⟩, hst3⟩
  exact Spec.pure ⟨hr, hst3⟩

theorem spec_gePublic {d : Nat} (hd : k = 2 ^ d) {x : PartyID → Share (BitVec k)} {a : BitVec k}
    (b : BitVec k) (hx : IsShare x a) (hst : Corr ty st) :
    Spec (M := M) (fun i => gePublic (x i) b) st (fun r st' =>
      IsBShare r (BitVec.ofBool (decide (b.toNat ≤ a.toNat))) ∧ Corr ty st') := by
  refine Spec.bind (spec_a2bSelector hd hx hst) ?_
  rintro a' st1 ⟨ha, hst1⟩
  refine Spec.bind (spec_subByConstWithCarry hd b ha hst1) ?_
  rintro r st3 ⟨⟨-, hr⟩, hst3⟩
  exact Spec.pure ⟨hr, hst3⟩

theorem not_ofBool (b : Bool) : ~~~(BitVec.ofBool b) = BitVec.ofBool (!b) := by cases b <;> rfl

theorem one_sub_ofBool (b : Bool) : 1#1 - BitVec.ofBool b = BitVec.ofBool (!b) := by cases b <;> rfl

theorem not_decide_le (a b : Nat) : (!decide (b ≤ a)) = decide (a < b) := by
  by_cases h : b ≤ a
  · simp [h]
  · simp [h, Nat.lt_of_not_le h]

theorem spec_lt {d : Nat} (hd : k = 2 ^ d) {x y : PartyID → Share (BitVec k)} {a b : BitVec k}
    (hx : IsShare x a) (hy : IsShare y b) (hst : Corr ty st) :
    Spec (M := M) (fun i => lt (x i) (y i)) st (fun r st' =>
      IsBShare r (BitVec.ofBool (decide (a.toNat < b.toNat))) ∧ Corr ty st') := by
  refine Spec.bind (spec_ge hd hx hy hst) ?_
  rintro r st1 ⟨hr, hst1⟩
  refine Spec.bind (spec_stateId hst1) ?_
  rintro _ _ ⟨rfl, rfl⟩
  refine Spec.pure ⟨?_, hst1⟩
  have := IsShare.addPublic (IsShare.neg (isShare_one.2 hr)) 1#1
  have e : -BitVec.ofBool (decide (b.toNat ≤ a.toNat)) + 1#1 =
      BitVec.ofBool (decide (a.toNat < b.toNat)) := by
    rw [← not_decide_le]
    cases decide (b.toNat ≤ a.toNat) <;> rfl
  rw [e] at this
  exact isShare_one.1 this

theorem spec_ltPublic {d : Nat} (hd : k = 2 ^ d) {x : PartyID → Share (BitVec k)} {a : BitVec k}
    (b : BitVec k) (hx : IsShare x a) (hst : Corr ty st) :
    Spec (M := M) (fun i => ltPublic (x i) b) st (fun r st' =>
      IsBShare r (BitVec.ofBool (decide (a.toNat < b.toNat))) ∧ Corr ty st') := by
  refine Spec.bind (spec_gePublic hd b hx hst) ?_
  rintro r st1 ⟨hr, hst1⟩
  have := hr.bnot
  rw [not_ofBool, not_decide_le] at this
  exact Spec.pure ⟨this, hst1⟩

theorem spec_gt {d : Nat} (hd : k = 2 ^ d) {x y : PartyID → Share (BitVec k)} {a b : BitVec k}
    (hx : IsShare x a) (hy : IsShare y b) (hst : Corr ty st) :
    Spec (M := M) (fun i => gt (x i) (y i)) st (fun r st' =>
      IsBShare r (BitVec.ofBool (decide (b.toNat < a.toNat))) ∧ Corr ty st') := by
  refine Spec.bind (spec_ge hd hy hx hst) ?_
  rintro r st1 ⟨hr, hst1⟩
  have := hr.bnot
  rw [not_ofBool, not_decide_le] at this
  exact Spec.pure ⟨this, hst1⟩

theorem spec_gtPublic {d : Nat} (hd : k = 2 ^ d) {x : PartyID → Share (BitVec k)} {a : BitVec k}
    (b : BitVec k) (hx : IsShare x a) (hst : Corr ty st) :
    Spec (M := M) (fun i => gtPublic (x i) b) st (fun r st' =>
      IsBShare r (BitVec.ofBool (decide (b.toNat < a.toNat))) ∧ Corr ty st') := by
  refine Spec.bind (spec_unsignedGeConstLhs hd b hx hst) ?_
  rintro r st1 ⟨hr, hst1⟩
  have := hr.bnot
  rw [not_ofBool, not_decide_le] at this
  exact Spec.pure ⟨this, hst1⟩

theorem spec_eq {d : Nat} (hd : k = 2 ^ d) {x y : PartyID → Share (BitVec k)} {a b : BitVec k}
    (hx : IsShare x a) (hy : IsShare y b) (hst : Corr ty st) :
    Spec (M := M) (fun i => eq (x i) (y i)) st (fun r st' =>
      IsBShare r (BitVec.ofBool (decide (a = b))) ∧ Corr ty st') := by
  refine Spec.bind (spec_a2bSelector hd (hx.sub hy) hst) ?_
  rintro a' st1 ⟨ha, hst1⟩
  have := spec_isZeroBits (M := M) hd ha hst1
  have e : decide (a - b = 0#k) = decide (a = b) := by
    congr 1
    rw [eq_iff_iff]
    exact sub_eq_zero
  rw [e] at this
  exact this

theorem spec_eqPublic {d : Nat} (hd : k = 2 ^ d) {x : PartyID → Share (BitVec k)} {a : BitVec k}
    (b : BitVec k) (hx : IsShare x a) (hst : Corr ty st) :
    Spec (M := M) (fun i => eqPublic (x i) b) st (fun r st' =>
      IsBShare r (BitVec.ofBool (decide (a = b))) ∧ Corr ty st') := by
  refine Spec.bind (spec_stateId hst) ?_
  rintro _ _ ⟨rfl, rfl⟩
  exact spec_eq hd hx (IsShare.promote b) hst

theorem spec_neq {d : Nat} (hd : k = 2 ^ d) {x y : PartyID → Share (BitVec k)} {a b : BitVec k}
    (hx : IsShare x a) (hy : IsShare y b) (hst : Corr ty st) :
    Spec (M := M) (fun i => neq (x i) (y i)) st (fun r st' =>
      IsBShare r (BitVec.ofBool (decide (a ≠ b))) ∧ Corr ty st') := by
  refine Spec.bind (spec_eq hd hx hy hst) ?_
  rintro r st1 ⟨hr, hst1⟩
  have := hr.bnot
  rw [not_ofBool, ← decide_not] at this
  exact Spec.pure ⟨this, hst1⟩

theorem spec_neqPublic {d : Nat} (hd : k = 2 ^ d) {x : PartyID → Share (BitVec k)} {a : BitVec k}
    (b : BitVec k) (hx : IsShare x a) (hst : Corr ty st) :
    Spec (M := M) (fun i => neqPublic (x i) b) st (fun r st' =>
      IsBShare r (BitVec.ofBool (decide (a ≠ b))) ∧ Corr ty st') := by
  refine Spec.bind (spec_stateId hst) ?_
  rintro _ _ ⟨rfl, rfl⟩
  exact spec_neq hd hx (IsShare.promote b) hst

theorem spec_isZero [Sample R (BitVec 1)] [UintCodec M 1] {d : Nat} (hd : k = 2 ^ d) {x : PartyID → Share (BitVec k)} {a : BitVec k}
    (hx : IsShare x a) (hst : Corr ty st) :
    Spec (M := M) (fun i => isZero (x i)) st (fun r st' =>
      (r = fun _ => decide (a = 0#k)) ∧ Corr ty st') := by
  refine Spec.bind (spec_eq hd IsShare.zero hx hst) ?_
  rintro r st1 ⟨hr, hst1⟩
  simp only [openBits_eq]
  refine Spec.bind (Bin.spec_open hr) ?_
  rintro v st2 ⟨rfl, rfl⟩
  refine Spec.pure ⟨?_, hst1⟩
  funext _
  by_cases h : a = 0#k
  · subst h; simp [BitVec.ofBool]
  · have : ¬ 0#k = a := fun h' => h h'.symm
    simp [h, this, BitVec.ofBool]

end Compare

/-! ### Casts -/

section Casts

variable [Sample R (BitVec k)] [UintCodec M k] [Sample R (BitVec l)] [UintCodec M l]

theorem spec_upcastA2B {d e : Nat} (hd : k = 2 ^ d) (he : l = 2 ^ e) (hkl : k < l)
    {x : PartyID → Share (BitVec k)} {v : BitVec k} (hx : IsShare x v) (hst : Corr ty st) :
    Spec (M := M) (fun i => upcastA2B (l := l) (x i)) st (fun r st' =>
      IsShare r (v.setWidth l) ∧ Corr ty st') := by
  unfold upcastA2B
  simp only [hkl, not_true, if_false]
  refine Spec.ite' ?_ ?_
  · intro h1
    subst h1
    have h := spec_bitInjectFromBit (M := M) (k := l) (isShare_one.1 (hx.castTo (l := 1) le_rfl)) hst
    have e : (bitTo (v.setWidth 1) : BitVec l) = v.setWidth l := by
      have hv : ∀ z : BitVec 1, z = 0#1 ∨ z = 1#1 := by decide
      rcases hv v with rfl | rfl
      · simp [bitTo]
      · simp only [bitTo, BitVec.setWidth_eq, if_true]
        apply BitVec.eq_of_toNat_eq
        have h1 : 1 < 2 ^ l := lt_of_lt_of_le hkl (le_of_lt Nat.lt_two_pow_self)
        show (1#l).toNat = _
        simp
    rw [e] at h
    exact h
  · intro h1
    refine Spec.bind (spec_a2b hd hx hst) ?_
    rintro b st1 ⟨hb, hst1⟩
    exact spec_b2a he (hb.castTo l) hst1

theorem spec_castA2B {d e : Nat} (hd : k = 2 ^ d) (he : l = 2 ^ e)
    {x : PartyID → Share (BitVec k)} {v : BitVec k} (hx : IsShare x v) (hst : Corr ty st) :
    Spec (M := M) (fun i => castA2B (l := l) (x i)) st (fun r st' =>
      IsShare r (v.setWidth l) ∧ Corr ty st') := by
  unfold castA2B
  refine Spec.ite' ?_ ?_
  · intro h
    have e : (fun i => orPanic (downcast (l := l) (x i)) : PartyID → Rep3M R M _) =
        fun i => pure ((x i).castTo l) := by
      funext i; simp [orPanic, downcast, h]
    rw [e]
    exact Spec.pure ⟨hx.castTo h, hst⟩
  · intro h
    exact spec_upcastA2B hd he (by omega) hx hst

theorem bitTo_setWidth {v : BitVec 1} (hl : 0 < l) : (bitTo v : BitVec l) = v.setWidth l := by
  have hv : ∀ z : BitVec 1, z = 0#1 ∨ z = 1#1 := by decide
  rcases hv v with rfl | rfl
  · simp [bitTo]
  · apply BitVec.eq_of_toNat_eq
    simp [bitTo]

omit [Sample R (BitVec k)] [UintCodec M k] in
theorem spec_upcastMany [Yao.YaoRng R] [Yao.YaoNet M] (hk : 0 < k) (hkl : k < l)
    (hH : Yao.HashSeparates (Yao.YaoNet.hash M)) {x : PartyID → List (Share (BitVec k))} {vs : List (BitVec k)}
    (hx : IsShares x vs) (hst : Corr ty st) :
    Spec (M := M) (fun i => upcastMany (l := l) (x i)) st (fun r st' =>
      IsShares r (vs.map fun v => v.setWidth l) ∧ Corr ty st') := by
  unfold upcastMany
  simp only [hkl, not_true, if_false]
  refine Spec.ite' ?_ ?_
  · rintro rfl
    have h1 : IsBShares (fun i => (x i).map fun (s : Share (BitVec 1)) => s.castTo 1) _ :=
      Cols.map (f := fun _ (s : Share (BitVec 1)) => s.castTo 1) (g := fun v : BitVec 1 => v)
        (Q := IsBShare) hx (fun x v h => by
          have := isShare_one.1 (h.castTo (l := 1) le_rfl)
          rwa [BitVec.setWidth_eq] at this)
    have key := spec_fromBitsMany (M := M) (F := BitVec l) h1 hst
    have e : (vs.map fun v => v).map (bitTo : BitVec 1 → BitVec l) = vs.map fun v => v.setWidth l := by
      simp only [List.map_id_fun', id_eq]
      exact List.map_congr_left fun v _ => bitTo_setWidth (by omega)
    rw [e] at key
    exact key
  · intro _
    exact Yao.Gc.spec_upcastManyGc hk hkl hH hx hst

omit [Sample R (BitVec k)] [UintCodec M k] in
theorem spec_castGc [Yao.YaoRng R] [Yao.YaoNet M] (hk : 0 < k)
    (hH : Yao.HashSeparates (Yao.YaoNet.hash M)) {x : PartyID → Share (BitVec k)} {v : BitVec k}
    (hx : IsShare x v) (hst : Corr ty st) :
    Spec (M := M) (fun i => castGc (l := l) (x i)) st (fun r st' =>
      IsShare r (v.setWidth l) ∧ Corr ty st') := by
  unfold castGc
  refine Spec.ite' ?_ ?_
  · intro h
    have e : (fun i => orPanic (downcast (l := l) (x i)) : PartyID → Rep3M R M _) =
        fun i => pure ((x i).castTo l) := by
      funext i; simp [orPanic, downcast, h]
    rw [e]
    exact Spec.pure ⟨hx.castTo h, hst⟩
  · intro h
    refine (spec_upcastMany (M := M) hk (by omega) hH (Cols.cons hx Cols.nil) hst).bind ?_
    rintro r st' ⟨hr, hst'⟩
    exact Yao.Gc.spec_first hr hst'

theorem spec_ringCastSelector [Yao.YaoRng R] [Yao.YaoNet M] {d e : Nat} (hd : k = 2 ^ d) (he : l = 2 ^ e)
    (hH : ty = .yao → Yao.HashSeparates (Yao.YaoNet.hash M))
    {x : PartyID → Share (BitVec k)} {v : BitVec k} (hx : IsShare x v) (hst : Corr ty st) :
    Spec (M := M) (fun i => ringCastSelector (l := l) (x i)) st (fun r st' =>
      IsShare r (v.setWidth l) ∧ Corr ty st') := by
  refine Spec.bind (spec_stateA2BType hst) ?_
  rintro _ _ ⟨rfl, rfl⟩
  cases ty with
  | direct => exact spec_castA2B hd he hx hst
  | yao => exact spec_castGc (pos_of_pow hd) (hH rfl) hx hst

variable {w p : Nat} [Sample R (BitVec w)] [UintCodec M w]

theorem ofField_setWidth [NeZero p] (hw : modBits p ≤ w) (v : ZMod p) :
    (Uint.ofField w v).setWidth k = BitVec.ofNat k v.val := by
  apply BitVec.eq_of_toNat_eq
  rw [BitVec.toNat_setWidth, ofField_toNat hw, BitVec.toNat_ofNat]

theorem spec_fieldToRingA2B [NeZero p] {d : Nat} (hd : k = 2 ^ d) (hw : modBits p + 2 ≤ w)
    {x : PartyID → Share (ZMod p)} {v : ZMod p} (hx : IsShare x v) (hst : Corr ty st) :
    Spec (M := M) (fun i => fieldToRingA2B (k := k) w (x i)) st (fun r st' =>
      IsShare r (BitVec.ofNat k v.val) ∧ Corr ty st') := by
  refine Spec.bind (Rep3.spec_a2b hw hx hst) ?_
  rintro b st1 ⟨hb, hst1⟩
  rw [← ofField_setWidth (w := w) (by omega) v]
  exact spec_b2a hd (hb.castTo k) hst1

theorem spec_fieldToRingA2BMany [NeZero p] {d : Nat} (hd : k = 2 ^ d) (hw : modBits p + 2 ≤ w)
    {x : PartyID → List (Share (ZMod p))} {vs : List (ZMod p)} (hx : IsShares x vs) (hst : Corr ty st) :
    Spec (M := M) (fun i => fieldToRingA2BMany (k := k) w (x i)) st (fun r st' =>
      IsShares r (vs.map fun v => BitVec.ofNat k v.val) ∧ Corr ty st') := by
  refine Spec.bind (Rep3.spec_a2bMany hw hx hst) ?_
  rintro b st1 ⟨hb, hst1⟩
  have : IsBShares (fun i => (b i).map fun (s : Share (BitVec w)) => s.castTo k) _ :=
    Cols.map (f := fun _ (s : Share (BitVec w)) => s.castTo k) (g := fun v : BitVec w => v.setWidth k)
      hb (fun x v h => h.castTo k)
  have key := spec_b2aMany (M := M) hd this hst1
  simp only [List.map_map, Function.comp_def, ofField_setWidth (k := k) (show modBits p ≤ w by omega)] at key
  exact key

variable [Sample R (ZMod p)] [Codec M (List (ZMod p))]

theorem lt_two_pow_w (hw : modBits p + 2 ≤ w) : p < 2 ^ w :=
  lt_of_lt_of_le lt_two_pow_modBits (Nat.pow_le_pow_right (by decide) (by omega))

theorem setWidth_toNat (hw : modBits p + 2 ≤ w) {v : BitVec k} (hv : v.toNat < p) :
    (v.setWidth w).toNat = v.toNat := by
  rw [BitVec.toNat_setWidth]
  exact Nat.mod_eq_of_lt (lt_trans hv (lt_two_pow_w hw))

theorem isBitShare_castTo (hw : 0 < w) {x : PartyID → Share (BitVec 1)} {v : BitVec 1} (hx : IsBShare x v) :
    IsBitShare (fun i => (x i).castTo w) (v.getLsbD 0) := by
  have hlt : ∀ z : BitVec 1, (z.setWidth w).toNat < 2 := by
    intro z
    rw [BitVec.toNat_setWidth]
    exact lt_of_le_of_lt (Nat.mod_le _ _) z.isLt
  refine ⟨?_, fun i => ⟨hlt _, hlt _⟩⟩
  have := hx.castTo w
  have e : v.setWidth w = if v.getLsbD 0 then 1#w else 0#w := by
    have hv : ∀ z : BitVec 1, z = 0#1 ∨ z = 1#1 := by decide
    rcases hv v with rfl | rfl
    · simp
    · apply BitVec.eq_of_toNat_eq
      simp
  rw [e] at this
  exact this

theorem bitVal_eq (v : BitVec 1) : (bitVal (v.getLsbD 0) : ZMod p) = (v.toNat : ZMod p) := by
  have hv : ∀ z : BitVec 1, z = 0#1 ∨ z = 1#1 := by decide
  rcases hv v with rfl | rfl <;> simp [bitVal]

theorem spec_ringToFieldA2B [NeZero p] {d : Nat} (hd : k = 2 ^ d) (hw : modBits p + 2 ≤ w)
    {x : PartyID → Share (BitVec k)} {v : BitVec k} (hx : IsShare x v) (hv : v.toNat < p)
    (hst : Corr ty st) :
    Spec (M := M) (fun i => ringToFieldA2B w (x i)) st (fun r st' =>
      IsShare r (v.toNat : ZMod p) ∧ Corr ty st') := by
  refine Spec.ite' ?_ ?_
  · rintro rfl
    rw [← bitVal_eq]
    exact Rep3.spec_bitInject (by omega) (isBitShare_castTo (by omega) (isShare_one.1 hx)) hst
  · intro h1
    refine Spec.bind (spec_a2b hd hx hst) ?_
    rintro b st1 ⟨hb, hst1⟩
    have := Rep3.spec_b2a (M := M) hw (hb.castTo w) (by rw [setWidth_toNat hw hv]; exact hv) hst1
    rw [setWidth_toNat hw hv] at this
    exact this

theorem spec_ringToFieldA2BMany [NeZero p] {d : Nat} (hd : k = 2 ^ d) (hw : modBits p + 2 ≤ w)
    {x : PartyID → List (Share (BitVec k))} {vs : List (BitVec k)} (hx : IsShares x vs)
    (hv : ∀ v ∈ vs, v.toNat < p) (hst : Corr ty st) :
    Spec (M := M) (fun i => ringToFieldA2BMany w (x i)) st (fun r st' =>
      IsShares r (vs.map fun v => (v.toNat : ZMod p)) ∧ Corr ty st') := by
  refine Spec.ite' ?_ ?_
  · rintro rfl
    have h1 : IsBitShares (fun i => (x i).map fun (s : Share (BitVec 1)) => s.castTo w) _ :=
      Cols.map (f := fun _ (s : Share (BitVec 1)) => s.castTo w) (g := fun v : BitVec 1 => v.getLsbD 0)
        (Q := IsBitShare) hx (fun x v h => isBitShare_castTo (by omega) (isShare_one.1 h))
    have key := Rep3.spec_bitInjectMany (M := M) (p := p) (by omega) h1 hst
    simp only [List.map_map, Function.comp_def, bitVal_eq] at key
    exact key
  · intro h1
    refine Spec.bind (spec_a2bMany hd hx hst) ?_
    rintro b st1 ⟨hb, hst1⟩
    have : IsBShares (fun i => (b i).map fun (s : Share (BitVec k)) => s.castTo w) _ :=
      Cols.map (f := fun _ (s : Share (BitVec k)) => s.castTo w) (g := fun v : BitVec k => v.setWidth w)
        hb (fun x v h => h.castTo w)
    have key := Rep3.spec_b2aMany (M := M) (p := p) hw this (by
      intro u hu
      obtain ⟨v, hm, rfl⟩ := List.mem_map.1 hu
      rw [setWidth_toNat hw (hv v hm)]
      exact hv v hm) hst1
    have e : (vs.map fun v => v.setWidth w).map (fun v => (v.toNat : ZMod p)) =
        vs.map fun v => (v.toNat : ZMod p) := by
      rw [List.map_map]
      apply List.map_congr_left
      intro v hm
      simp only [Function.comp_apply, setWidth_toNat hw (hv v hm)]
    rw [e] at key
    exact key

omit [Sample R (BitVec k)] [UintCodec M k] in
theorem spec_ringToFieldMany [Yao.YaoRng R] [Yao.YaoNet M] [NeZero p] (ho : p % 2 = 1) (hk : 0 < k)
    (hkp : k ≤ modBits p) (hw : modBits p ≤ w)
    (hH : Yao.HashSeparates (Yao.YaoNet.hash M))
    {x : PartyID → List (Share (BitVec k))} {vs : List (BitVec k)} (hx : IsShares x vs)
    (hv : ∀ v ∈ vs, v.toNat < p) (hst : Corr ty st) :
    Spec (M := M) (fun i => ringToFieldMany w (x i)) st (fun r st' =>
      IsShares r (vs.map fun v => (v.toNat : ZMod p)) ∧ Corr ty st') := by
  refine Spec.ite' ?_ ?_
  · rintro rfl
    have h1 : IsBitShares (fun i => (x i).map fun (s : Share (BitVec 1)) => s.castTo w) _ :=
      Cols.map (f := fun _ (s : Share (BitVec 1)) => s.castTo w) (g := fun v : BitVec 1 => v.getLsbD 0)
        (Q := IsBitShare) hx (fun x v h => isBitShare_castTo (by omega) (isShare_one.1 h))
    have key := Rep3.spec_bitInjectMany (M := M) (p := p) (by omega) h1 hst
    simp only [List.map_map, Function.comp_def, bitVal_eq] at key
    exact key
  · intro _
    exact Yao.Gc.spec_ringToFieldManyGc ho hw hk hkp hH hx hv hst

theorem spec_ringToFieldSelector [Yao.YaoRng R] [Yao.YaoNet M] [NeZero p] {d : Nat} (hd : k = 2 ^ d)
    (hw : modBits p + 2 ≤ w) (ho : ty = .yao → p % 2 = 1 ∧ k ≤ modBits p)
    (hH : ty = .yao → Yao.HashSeparates (Yao.YaoNet.hash M))
    {x : PartyID → Share (BitVec k)} {v : BitVec k} (hx : IsShare x v) (hv : v.toNat < p)
    (hst : Corr ty st) :
    Spec (M := M) (fun i => ringToFieldSelector w (x i)) st (fun r st' =>
      IsShare r (v.toNat : ZMod p) ∧ Corr ty st') := by
  refine Spec.bind (spec_stateA2BType hst) ?_
  rintro _ _ ⟨rfl, rfl⟩
  cases ty with
  | direct => exact spec_ringToFieldA2B hd hw hx hv hst
  | yao =>
    refine (spec_ringToFieldMany (M := M) (ho rfl).1 (pos_of_pow hd) (ho rfl).2 (by omega) (hH rfl)
      (Cols.cons hx Cols.nil) (by simpa using hv) hst).bind ?_
    rintro r st' ⟨hr, hst'⟩
    exact Yao.Gc.spec_first hr hst'

omit [Sample R (ZMod p)] [Codec M (List (ZMod p))] in
theorem spec_fieldToRingSelector [Yao.YaoRng R] [Yao.YaoNet M] [NeZero p] {d : Nat} (hd : k = 2 ^ d)
    (hw : modBits p + 2 ≤ w) (ho : ty = .yao → p % 2 = 1 ∧ k ≤ modBits p)
    (hH : ty = .yao → Yao.HashSeparates (Yao.YaoNet.hash M))
    {x : PartyID → Share (ZMod p)} {v : ZMod p} (hx : IsShare x v) (hst : Corr ty st) :
    Spec (M := M) (fun i => fieldToRingSelector (k := k) w (x i)) st (fun r st' =>
      IsShare r (BitVec.ofNat k v.val) ∧ Corr ty st') := by
  refine Spec.bind (spec_stateA2BType hst) ?_
  rintro _ _ ⟨rfl, rfl⟩
  cases ty with
  | direct => exact spec_fieldToRingA2B hd hw hx hst
  | yao =>
    refine (Yao.Gc.spec_fieldToRingMany (M := M) (ho rfl).1 (pos_of_pow hd) (ho rfl).2 (hH rfl)
      (Cols.cons hx Cols.nil) hst).bind ?_
    rintro r st' ⟨hr, hst'⟩
    exact Yao.Gc.spec_first hr hst'

theorem big_mask (hw : modBits p + 2 ≤ w) (v : BitVec k) :
    ((v &&& (Uint.mask w (modBits p)).setWidth k).setWidth w).toNat = v.toNat % 2 ^ modBits p := by
  have h1 : 2 ^ modBits p < 2 ^ w := Nat.pow_lt_pow_right (by decide) (by omega)
  rw [BitVec.toNat_setWidth, BitVec.toNat_and, BitVec.toNat_setWidth, Uint.mask_toNat (by omega)]
  have : v.toNat &&& (2 ^ modBits p - 1) % 2 ^ k = v.toNat % 2 ^ modBits p := by
    by_cases h : k ≤ modBits p
    · have e : (2 ^ modBits p - 1) % 2 ^ k = 2 ^ k - 1 := by
        obtain ⟨c, hc⟩ := Nat.exists_eq_add_of_le h
        rw [hc, pow_add]
        have h2 : 0 < 2 ^ k := Nat.two_pow_pos k
        have h3 : 0 < 2 ^ c := Nat.two_pow_pos c
        rw [show 2 ^ k * 2 ^ c - 1 = (2 ^ k - 1) + 2 ^ k * (2 ^ c - 1) by
          rw [Nat.mul_sub, Nat.mul_one]
          have : 2 ^ k ≤ 2 ^ k * 2 ^ c := Nat.le_mul_of_pos_right _ h3
          omega]
        rw [Nat.add_mul_mod_self_left, Nat.mod_eq_of_lt (by omega)]
      have hv := v.isLt
      have h4 : 2 ^ k ≤ 2 ^ modBits p := Nat.pow_le_pow_right (by decide) h
      rw [e, Nat.and_two_pow_sub_one_eq_mod, Nat.mod_eq_of_lt hv, Nat.mod_eq_of_lt (by omega)]
    · have h4 : 2 ^ modBits p < 2 ^ k := Nat.pow_lt_pow_right (by decide) (by omega)
      have h5 := Nat.two_pow_pos (modBits p)
      rw [Nat.mod_eq_of_lt (by omega), Nat.and_two_pow_sub_one_eq_mod]
  rw [this]
  have h2 : v.toNat % 2 ^ modBits p < 2 ^ modBits p := Nat.mod_lt _ (Nat.two_pow_pos _)
  exact Nat.mod_eq_of_lt (by omega)

theorem spec_ringToFieldA2BBigRing [NeZero p] {d : Nat} (hd : k = 2 ^ d) (hw : modBits p + 2 ≤ w)
    {x : PartyID → Share (BitVec k)} {v : BitVec k} (hx : IsShare x v)
    (hv : v.toNat % 2 ^ modBits p < p) (hst : Corr ty st) :
    Spec (M := M) (fun i => ringToFieldA2BBigRing w (x i)) st (fun r st' =>
      IsShare r ((v.toNat % 2 ^ modBits p : ℕ) : ZMod p) ∧ Corr ty st') := by
  refine Spec.bind (spec_a2b hd hx hst) ?_
  rintro b st1 ⟨hb, hst1⟩
  have := Rep3.spec_b2a (M := M) (p := p) hw ((hb.andMask ((Uint.mask w (modBits p)).setWidth k)).castTo w)
    (by rw [big_mask hw]; exact hv) hst1
  rw [big_mask hw] at this
  exact this

theorem spec_ringToFieldA2BBigRingMany [NeZero p] {d : Nat} (hd : k = 2 ^ d) (hw : modBits p + 2 ≤ w)
    {x : PartyID → List (Share (BitVec k))} {vs : List (BitVec k)} (hx : IsShares x vs)
    (hv : ∀ v ∈ vs, v.toNat % 2 ^ modBits p < p) (hst : Corr ty st) :
    Spec (M := M) (fun i => ringToFieldA2BBigRingMany w (x i)) st (fun r st' =>
      IsShares r (vs.map fun v => ((v.toNat % 2 ^ modBits p : ℕ) : ZMod p)) ∧ Corr ty st') := by
  refine Spec.bind (spec_a2bMany hd hx hst) ?_
  rintro b st1 ⟨hb, hst1⟩
  have : IsBShares (fun i => (b i).map fun (s : Share (BitVec k)) =>
      (s.andMask ((Uint.mask w (modBits p)).setWidth k)).castTo w) _ :=
    Cols.map (f := fun _ (s : Share (BitVec k)) => (s.andMask ((Uint.mask w (modBits p)).setWidth k)).castTo w)
      (g := fun v : BitVec k => (v &&& (Uint.mask w (modBits p)).setWidth k).setWidth w)
      hb (fun x v h => (h.andMask _).castTo w)
  have key := Rep3.spec_b2aMany (M := M) (p := p) hw this (by
    intro u hu
    obtain ⟨v, hm, rfl⟩ := List.mem_map.1 hu
    rw [big_mask hw]
    exact hv v hm) hst1
  simp only [List.map_map, Function.comp_def, big_mask hw] at key
  exact key

end Casts

end Verif.Rep3.Ring
