import Verif.Rep3.Adder

/-!
# Lemmas about the adders on binary shares
-/

namespace Verif.Rep3.Bin

open PartyID
open MPC (bail panicWith)

variable {R M : Type} {w : Nat} {ty : A2BType} {st : PartyID → Rep3State R}

section Pure

theorem Uint.lt_pow_add {a b n w : Nat} (ha : a < 2 ^ n) (hb : b ≤ 2 ^ n) (hn : n < w) :
    a + b < 2 ^ w := by
  have : 2 ^ (n + 1) ≤ 2 ^ w := Nat.pow_le_pow_right (by decide) hn
  rw [pow_succ] at this
  omega

/-- Complement within `n` bits. -/
theorem xor_mask_toNat (x : BitVec w) (n : Nat) (hn : n ≤ w) (hx : x.toNat < 2 ^ n) :
    (x ^^^ Uint.mask w n).toNat = 2 ^ n - 1 - x.toNat := by
  have e : (x ^^^ Uint.mask w n) = BitVec.ofNat w (2 ^ n - 1 - x.toNat) := by
    apply BitVec.eq_of_getLsbD_eq
    intro i hi
    rw [BitVec.getLsbD_xor, Uint.getLsbD_mask, BitVec.getLsbD_ofNat]
    have : 2 ^ n - 1 - x.toNat = 2 ^ n - (x.toNat + 1) := by omega
    rw [this, Nat.testBit_two_pow_sub_succ hx]
    simp only [hi, decide_true, Bool.true_and]
    by_cases h : i < n
    · simp [h, BitVec.getLsbD]
    · simp [h, getLsbD_of_lt hx i (by omega)]
  rw [e, BitVec.toNat_ofNat]
  have : 2 ^ n ≤ 2 ^ w := Nat.pow_le_pow_right (by decide) hn
  exact Nat.mod_eq_of_lt (by have := Nat.two_pow_pos n; omega)

theorem ks_sub (x y : BitVec w) (n : Nat) (hb : 0 < n) (hn : n < w) (hx : x.toNat < 2 ^ n)
    (hy : y.toNat < 2 ^ n) :
    let y' := y ^^^ Uint.mask w n
    ksPlain (x ^^^ y') ((x &&& y') ^^^ ((x ^^^ y') &&& 1#w)) n ^^^ 1#w =
      BitVec.ofNat w (x.toNat + 2 ^ n - y.toNat) := by
  intro y'
  have hy' : y'.toNat = 2 ^ n - 1 - y.toNat := xor_mask_toNat y n (by omega) hy
  have hp := Nat.two_pow_pos n
  rw [ks_add_one x y' n hb hx (by omega)]
  apply BitVec.eq_of_toNat_eq
  simp only [BitVec.toNat_add, BitVec.toNat_ofNat, hy', Nat.mod_add_mod, Nat.add_mod_mod]
  congr 1
  omega

theorem one_shl_sub_toNat (m : BitVec w) (n : Nat) (hn : n < w) (h0 : m.toNat ≤ 2 ^ n) :
    ((1#w <<< n) - m).toNat = 2 ^ n - m.toNat := by
  have h2 : 2 ^ n < 2 ^ w := Nat.pow_lt_pow_right (by decide) hn
  have h1 : (1#w <<< n).toNat = 2 ^ n := by
    rw [BitVec.toNat_shiftLeft, BitVec.toNat_ofNat, Nat.mod_eq_of_lt (show 1 < 2 ^ w by
      exact Nat.one_lt_two_pow (by omega)), Nat.one_shiftLeft]
    exact Nat.mod_eq_of_lt h2
  rw [BitVec.toNat_sub_of_le (by rw [BitVec.le_def, h1]; exact h0), h1]

theorem ks_sub_const (x m : BitVec w) (n : Nat) (hb : 0 < n) (hn : n < w) (hx : x.toNat < 2 ^ n)
    (h0 : 0 < m.toNat) (hm : m.toNat ≤ 2 ^ n) :
    ksPlain (x ^^^ ((1#w <<< n) - m)) (x &&& ((1#w <<< n) - m)) n =
      BitVec.ofNat w (x.toNat + 2 ^ n - m.toNat) := by
  have e := one_shl_sub_toNat m n hn hm
  have hp := Nat.two_pow_pos n
  rw [ks_add x _ n hb hx (by omega)]
  apply BitVec.eq_of_toNat_eq
  simp only [BitVec.toNat_add, BitVec.toNat_ofNat, e]
  congr 1
  omega

/-- The bit above a subtraction tells the comparison. -/
theorem sub_msb {a b n : Nat} (hn : n < w) (ha : a < 2 ^ n) (hb : b ≤ 2 ^ n) :
    ((BitVec.ofNat w (a + 2 ^ n - b)) >>> n).getLsbD 0 = decide (b ≤ a) := by
  rw [BitVec.getLsbD_ushiftRight, BitVec.getLsbD_ofNat]
  simp only [Nat.add_zero, hn, decide_true, Bool.true_and]
  by_cases h : b ≤ a
  · have : a + 2 ^ n - b = 2 ^ n + (a - b) := by omega
    rw [this, Nat.testBit_two_pow_add_eq, Nat.testBit_lt_two_pow (by omega)]
    simp [h]
  · rw [Nat.testBit_lt_two_pow (by omega)]
    simp [h]

theorem mask_and_toNat (x : BitVec w) (n : Nat) (hn : n ≤ w) :
    (x &&& Uint.mask w n).toNat = x.toNat % 2 ^ n := by
  rw [BitVec.toNat_and, Uint.mask_toNat hn, Nat.and_two_pow_sub_one_eq_mod]

/-- Conditional subtraction of the modulus. -/
theorem subP_sel (p x B : Nat) (hB : B + 1 < w) (hp : p < 2 ^ B) (h0 : 0 < p) (hx : x < 2 * p) :
    sel (if ((BitVec.ofNat w (x + 2 ^ (B + 1) - p)) >>> (B + 1)).getLsbD 0 then Uint.mask w B else 0#w)
      (BitVec.ofNat w (x + 2 ^ (B + 1) - p) &&& Uint.mask w B)
      (BitVec.ofNat w x &&& Uint.mask w B) = BitVec.ofNat w (x % p) := by
  have h2 : 2 ^ (B + 1) = 2 * 2 ^ B := by rw [pow_succ]; omega
  have h3 : 2 ^ (B + 2) ≤ 2 ^ w := Nat.pow_le_pow_right (by decide) hB
  have h4 : 2 ^ (B + 2) = 4 * 2 ^ B := by rw [pow_add]; omega
  rw [sub_msb hB (by omega) (by omega)]
  have hm : ∀ c, sel (Uint.mask w B) (c &&& Uint.mask w B) (BitVec.ofNat w x &&& Uint.mask w B) =
      c &&& Uint.mask w B := by
    intro c
    ext i hi
    simp only [sel, BitVec.getElem_and, BitVec.getElem_or, BitVec.getElem_not]
    cases (Uint.mask w B)[i] <;> simp
  have hz : ∀ c d : BitVec w, sel 0#w c d = d := by intro c d; simp [sel]
  by_cases h : p ≤ x
  · simp only [h, decide_true, if_true]
    rw [hm]
    apply BitVec.eq_of_toNat_eq
    rw [mask_and_toNat _ _ (by omega), BitVec.toNat_ofNat, BitVec.toNat_ofNat,
      Nat.mod_eq_of_lt (show x + 2 ^ (B + 1) - p < 2 ^ w by omega),
      show x + 2 ^ (B + 1) - p = (x - p) + 2 ^ B * 2 by omega, Nat.add_mul_mod_self_left,
      Nat.mod_eq_of_lt (show x - p < 2 ^ B by omega), Nat.mod_eq_sub_mod h,
      Nat.mod_eq_of_lt (show x - p < p by omega), Nat.mod_eq_of_lt (by omega)]
  · simp only [h, decide_false, if_false, Bool.false_eq_true]
    rw [hz]
    apply BitVec.eq_of_toNat_eq
    rw [mask_and_toNat _ _ (by omega), BitVec.toNat_ofNat, BitVec.toNat_ofNat,
      Nat.mod_eq_of_lt (show x < 2 ^ w by omega), Nat.mod_eq_of_lt (show x < 2 ^ B by omega),
      Nat.mod_eq_of_lt (show x < p by omega), Nat.mod_eq_of_lt (show x < 2 ^ w by omega)]

end Pure

theorem isBShare_spread {s : PartyID → Share (BitVec w)} {v : BitVec w} (h : IsBShare s v)
    (m : BitVec w) : IsBShare (fun i => spread (s i) m) (if v.getLsbD 0 then m else 0#w) := by
  refine ⟨fun i => by simp [spread, h.1 i], ?_⟩
  rw [← h.2]
  simp only [spread, BitVec.getLsbD_xor]
  cases (s ID0).a.getLsbD 0 <;> cases (s ID1).a.getLsbD 0 <;> cases (s ID2).a.getLsbD 0 <;> simp

variable [Sample R (BitVec w)] [UintCodec M w]

theorem spec_andTwice {a x y : PartyID → Share (BitVec w)} {z v u : BitVec w} (bitlen : Nat)
    (ha : IsBShare a z) (hx : IsBShare x v) (hy : IsBShare y u) (hst : Corr ty st) :
    Spec (M := M) (fun i => andTwice (a i) (x i) (y i) bitlen) st (fun r st' =>
      (IsBShare (fun i => (r i).1) (v &&& z) ∧ IsBShare (fun i => (r i).2) (z &&& u)) ∧
        Corr ty st') := by
  refine Spec.bind (spec_maskBits bitlen hst) ?_
  rintro m st' ⟨⟨r, rfl⟩, hst'⟩
  refine Spec.bind (spec_maskBits bitlen hst') ?_
  rintro m st'' ⟨⟨r', rfl⟩, hst''⟩
  refine Spec.bind spec_reshare ?_
  rintro z' st3 ⟨rfl, rfl⟩
  exact Spec.pure ⟨⟨isBShare_mk (x := fun i => (x i).localAnd (a i) ^^^ (r i ^^^ r i.prev))
    (IsBShare.masked hx ha r), isBShare_mk (x := fun i => (a i).localAnd (y i) ^^^ (r' i ^^^ r' i.prev))
    (IsBShare.masked ha hy r')⟩, hst''⟩

theorem spec_andTwiceMany
    {abs : PartyID → List (Share (BitVec w) × Share (BitVec w) × Share (BitVec w))}
    {vs : List (BitVec w × BitVec w × BitVec w)} (bitlen : Nat)
    (h : Cols (fun (x : PartyID → Share (BitVec w) × Share (BitVec w) × Share (BitVec w))
      (v : BitVec w × BitVec w × BitVec w) => IsBShare (fun i => (x i).1) v.1 ∧
        IsBShare (fun i => (x i).2.1) v.2.1 ∧ IsBShare (fun i => (x i).2.2) v.2.2) abs vs)
    (hst : Corr ty st) :
    Spec (M := M) (fun i => andTwiceMany (abs i) bitlen) st (fun r st' =>
      (IsBShares (fun i => (r i).1) (vs.map fun v => v.2.1 &&& v.1) ∧
        IsBShares (fun i => (r i).2) (vs.map fun v => v.1 &&& v.2.2)) ∧ Corr ty st') := by
  refine Spec.bind (Spec.mapCols
    (Q := fun (x : PartyID → BitVec w × BitVec w) (v : BitVec w × BitVec w) =>
      (x ID0).1 ^^^ (x ID1).1 ^^^ (x ID2).1 = v.1 ∧ (x ID0).2 ^^^ (x ID1).2 ^^^ (x ID2).2 = v.2)
    (g := fun (v : BitVec w × BitVec w × BitVec w) => (v.2.1 &&& v.1, v.1 &&& v.2.2)) h ?_ hst) ?_
  · rintro z ⟨v, u, t⟩ st ⟨h1, h2, h3⟩ hst
    refine Spec.bind (spec_maskBits bitlen hst) ?_
    rintro m st' ⟨⟨r, rfl⟩, hst'⟩
    refine Spec.bind (spec_maskBits bitlen hst') ?_
    rintro m st'' ⟨⟨r', rfl⟩, hst''⟩
    exact Spec.pure ⟨⟨IsBShare.masked h2 h1 r, IsBShare.masked h1 h3 r'⟩, hst''⟩
  · rintro l st' ⟨hl, hst'⟩
    refine Spec.bind spec_reshare ?_
    rintro z' st3 ⟨rfl, rfl⟩
    refine Spec.pure ⟨⟨?_, ?_⟩, hst'⟩
    · have := isBShares_replicate (Cols.map (f := fun _ => Prod.fst) (g := Prod.fst)
        (Q := fun (x : PartyID → BitVec w) v => x ID0 ^^^ x ID1 ^^^ x ID2 = v) hl
        (fun x v h => h.1))
      simpa [List.map_map, Function.comp_def] using this
    · have := isBShares_replicate (Cols.map (f := fun _ => Prod.snd) (g := Prod.snd)
        (Q := fun (x : PartyID → BitVec w) v => x ID0 ^^^ x ID1 ^^^ x ID2 = v) hl
        (fun x v h => h.2))
      simpa [List.map_map, Function.comp_def] using this

theorem spec_koggeStoneInner {p g : PartyID → Share (BitVec w)} {v u : BitVec w} (bitlen : Nat)
    (hp : IsBShare p v) (hg : IsBShare g u) (hst : Corr ty st) :
    Spec (M := M) (fun i => koggeStoneInner (p i) (g i) bitlen) st
      (fun r st' => IsBShare r (ksPlain v u bitlen) ∧ Corr ty st') := by
  refine Spec.bind (Spec.foldlM (f := fun _ => koggeStoneRound bitlen)
    (s := fun i => (p i, g i)) (v := (v, u)) (I := Corr ty) (step := ksRound bitlen)
    (Rel := fun (s : PartyID → Share (BitVec w) × Share (BitVec w)) (v : BitVec w × BitVec w) =>
      IsBShare (fun i => (s i).1) v.1 ∧ IsBShare (fun i => (s i).2) v.2) ?_ ⟨hp, hg⟩ hst) ?_
  · rintro i - s ⟨v, u⟩ st ⟨h1, h2⟩ hst
    refine Spec.bind (spec_andTwice _ (h1.shr _) (h2.andMask _) (h1.andMask _) hst) ?_
    rintro r st' ⟨⟨h3, h4⟩, hst'⟩
    exact Spec.pure ⟨⟨h4.shl _, h2.bxor (h3.shl _)⟩, hst'⟩
  · rintro r st' ⟨⟨h1, h2⟩, hst'⟩
    exact Spec.pure ⟨(h2.shl 1).bxor hp, hst'⟩

theorem zipWith_map_self {α β γ δ : Type} (f : β → γ → δ) (a : α → β) (b : α → γ) (l : List α) :
    List.zipWith f (l.map a) (l.map b) = l.map fun x => f (a x) (b x) := by
  rw [List.zipWith_map, List.zipWith_self]

theorem zip_map_self {α β γ : Type} (a : α → β) (b : α → γ) (l : List α) :
    (l.map a).zip (l.map b) = l.map fun x => (a x, b x) := zipWith_map_self _ _ _ _

theorem spec_koggeStoneInnerMany {p g : PartyID → List (Share (BitVec w))}
    {l : List (BitVec w × BitVec w)} (bitlen : Nat)
    (hp : IsBShares p (l.map Prod.fst)) (hg : IsBShares g (l.map Prod.snd)) (hst : Corr ty st) :
    Spec (M := M) (fun i => koggeStoneInnerMany (p i) (g i) bitlen) st
      (fun r st' => IsBShares r (l.map fun v => ksPlain v.1 v.2 bitlen) ∧ Corr ty st') := by
  refine Spec.bind (Spec.foldlM (f := fun _ => koggeStoneRoundMany bitlen)
    (s := fun i => (p i, g i)) (v := l) (I := Corr ty)
    (step := fun l i => l.map fun v => ksRound bitlen v i)
    (Rel := fun (s : PartyID → List (Share (BitVec w)) × List (Share (BitVec w)))
      (v : List (BitVec w × BitVec w)) =>
      IsBShares (fun i => (s i).1) (v.map Prod.fst) ∧ IsBShares (fun i => (s i).2) (v.map Prod.snd))
    ?_ ⟨hp, hg⟩ hst) ?_
  · rintro k - s l st ⟨h1, h2⟩ hst
    have a1 : IsBShares (fun i => (s i).1.map fun (p : Share (BitVec w)) => p.shr (2 ^ k)) _ :=
      Cols.map (f := fun _ (p : Share (BitVec w)) => p.shr (2 ^ k)) (g := fun v : BitVec w => v >>> 2 ^ k)
        h1 (fun x v h => h.shr _)
    have a2 : IsBShares (fun i => (s i).2.map fun (p : Share (BitVec w)) =>
        p.andMask (Uint.mask w (bitlen - 2 ^ k))) _ :=
      Cols.map (f := fun _ (p : Share (BitVec w)) => p.andMask (Uint.mask w (bitlen - 2 ^ k)))
        (g := fun v : BitVec w => v &&& Uint.mask w (bitlen - 2 ^ k)) h2 (fun x v h => h.andMask _)
    have a3 : IsBShares (fun i => (s i).1.map fun (p : Share (BitVec w)) =>
        p.andMask (Uint.mask w (bitlen - 2 ^ k))) _ :=
      Cols.map (f := fun _ (p : Share (BitVec w)) => p.andMask (Uint.mask w (bitlen - 2 ^ k)))
        (g := fun v : BitVec w => v &&& Uint.mask w (bitlen - 2 ^ k)) h1 (fun x v h => h.andMask _)
    refine Spec.bind (spec_andTwiceMany _ (Cols.zip a1 (Cols.zip a2 a3)) hst) ?_
    rintro r st' ⟨⟨h3, h4⟩, hst'⟩
    refine Spec.pure ⟨⟨?_, ?_⟩, hst'⟩
    · have := Cols.zipWith (f := fun _ _ (r : Share (BitVec w)) => r.shl (2 ^ k))
        (g := fun _ (v : BitVec w) => v <<< 2 ^ k) (W := IsBShare) h1 h4 (fun _ _ _ _ _ h => h.shl _)
      simp only [List.map_map, zip_map_self, zipWith_map_self, Function.comp_def] at this ⊢
      exact this
    · have := Cols.zipWith (f := fun _ (g r : Share (BitVec w)) => g.bxor (r.shl (2 ^ k)))
        (g := fun (u v : BitVec w) => u ^^^ (v <<< 2 ^ k)) (W := IsBShare) h2 h3
        (fun _ _ _ _ h h' => h.bxor (h'.shl _))
      simp only [List.map_map, zip_map_self, zipWith_map_self, Function.comp_def] at this ⊢
      exact this
  · rintro r st' ⟨⟨h1, h2⟩, hst'⟩
    refine Spec.pure ⟨?_, hst'⟩
    have e : ∀ (ks : List Nat) (l : List (BitVec w × BitVec w)),
        ks.foldl (fun l i => l.map fun v => ksRound bitlen v i) l =
          l.map fun v => ks.foldl (ksRound bitlen) v := by
      intro ks
      induction ks with
      | nil => simp
      | cons k ks ih => intro l; simp [ih, Function.comp_def]
    rw [e] at h2
    have := Cols.zipWith (f := fun _ (g r : Share (BitVec w)) => (g.shl 1).bxor r)
      (g := fun (u v : BitVec w) => (u <<< 1) ^^^ v) (W := IsBShare) h2 hp
      (fun _ _ _ _ h h' => (h.shl 1).bxor h')
    simp only [List.map_map, zip_map_self, zipWith_map_self, Function.comp_def] at this ⊢
    exact this

theorem spec_lowDepthBinaryAdd {x y : PartyID → Share (BitVec w)} {v u : BitVec w} (bitlen : Nat)
    (hb : 0 < bitlen) (hx : IsBShare x v) (hy : IsBShare y u) (hv : v.toNat < 2 ^ bitlen)
    (hu : u.toNat < 2 ^ bitlen) (hst : Corr ty st) :
    Spec (M := M) (fun i => lowDepthBinaryAdd (x i) (y i) bitlen) st
      (fun r st' => IsBShare r (v + u) ∧ Corr ty st') := by
  refine Spec.bind (spec_and hx hy hst) ?_
  rintro g st' ⟨hg, hst'⟩
  have := spec_koggeStoneInner (M := M) bitlen (hx.bxor hy) hg hst'
  rwa [ks_add v u bitlen hb hv hu] at this

theorem spec_lowDepthBinaryAddMany {x y : PartyID → List (Share (BitVec w))}
    {l : List (BitVec w × BitVec w)} (bitlen : Nat)
    (hb : 0 < bitlen) (hx : IsBShares x (l.map Prod.fst)) (hy : IsBShares y (l.map Prod.snd))
    (hl : ∀ v ∈ l, v.1.toNat < 2 ^ bitlen ∧ v.2.toNat < 2 ^ bitlen) (hst : Corr ty st) :
    Spec (M := M) (fun i => lowDepthBinaryAddMany (x i) (y i) bitlen) st
      (fun r st' => IsBShares r (l.map fun v => v.1 + v.2) ∧ Corr ty st') := by
  refine Spec.bind (spec_andVec hx hy hst) ?_
  rintro g st' ⟨hg, hst'⟩
  have hp : IsBShares _ _ := Cols.zipWith (f := fun _ => Share.bxor) (g := (· ^^^ ·)) (W := IsBShare) hx hy
    (fun _ _ _ _ h h' => h.bxor h')
  rw [zipWith_map_self] at hg hp
  have := spec_koggeStoneInnerMany (M := M) (l := l.map fun v => (v.1 ^^^ v.2, v.1 &&& v.2)) bitlen
    (p := fun i => List.zipWith Share.bxor (x i) (y i)) (g := g)
    (by simpa [Function.comp_def] using hp) (by simpa [Function.comp_def] using hg) hst'
  refine this.mono ?_
  rintro r st'' ⟨hr, hst''⟩
  refine ⟨?_, hst''⟩
  rw [List.map_map] at hr
  convert hr using 1
  refine List.map_congr_left fun v hv => ?_
  exact (ks_add v.1 v.2 bitlen hb (hl v hv).1 (hl v hv).2).symm

theorem spec_lowDepthBinarySubP {x : PartyID → Share (BitVec w)} {v : BitVec w} (p bitlen : Nat)
    (hb : 0 < bitlen) (hw : bitlen < w) (hx : IsBShare x v) (hv : v.toNat < 2 ^ bitlen)
    (h0 : 0 < p) (hp : p ≤ 2 ^ bitlen) (hst : Corr ty st) :
    Spec (M := M) (fun i => lowDepthBinarySubP p (x i) bitlen) st (fun r st' =>
      IsBShare r (BitVec.ofNat w (v.toNat + 2 ^ bitlen - p)) ∧ Corr ty st') := by
  have h2 : 2 ^ bitlen < 2 ^ w := Nat.pow_lt_pow_right (by decide) hw
  have e : (Uint.modulus w p).toNat = p := by
    rw [Uint.modulus, BitVec.toNat_ofNat]; exact Nat.mod_eq_of_lt (by omega)
  have := spec_koggeStoneInner (M := M) bitlen (hx.xorMask ((1#w <<< bitlen) - Uint.modulus w p))
    (hx.andMask ((1#w <<< bitlen) - Uint.modulus w p)) hst
  rwa [ks_sub_const v _ bitlen hb hw hv (by omega) (by omega), e] at this

theorem spec_lowDepthBinarySubPMany {x : PartyID → List (Share (BitVec w))} {vs : List (BitVec w)}
    (p bitlen : Nat) (hb : 0 < bitlen) (hw : bitlen < w) (hx : IsBShares x vs)
    (hv : ∀ v ∈ vs, v.toNat < 2 ^ bitlen)
    (h0 : 0 < p) (hp : p ≤ 2 ^ bitlen) (hst : Corr ty st) :
    Spec (M := M) (fun i => lowDepthBinarySubPMany p (x i) bitlen) st (fun r st' =>
      IsBShares r (vs.map fun v => BitVec.ofNat w (v.toNat + 2 ^ bitlen - p)) ∧ Corr ty st') := by
  have h2 : 2 ^ bitlen < 2 ^ w := Nat.pow_lt_pow_right (by decide) hw
  have e : (Uint.modulus w p).toNat = p := by
    rw [Uint.modulus, BitVec.toNat_ofNat]; exact Nat.mod_eq_of_lt (by omega)
  have a1 : IsBShares (fun i => (x i).map fun (s : Share (BitVec w)) =>
      s.xorMask ((1#w <<< bitlen) - Uint.modulus w p)) _ :=
    Cols.map (f := fun _ (s : Share (BitVec w)) => s.xorMask ((1#w <<< bitlen) - Uint.modulus w p))
      (g := fun v : BitVec w => v ^^^ ((1#w <<< bitlen) - Uint.modulus w p)) hx (fun _ _ h => h.xorMask _)
  have a2 : IsBShares (fun i => (x i).map fun (s : Share (BitVec w)) =>
      s.andMask ((1#w <<< bitlen) - Uint.modulus w p)) _ :=
    Cols.map (f := fun _ (s : Share (BitVec w)) => s.andMask ((1#w <<< bitlen) - Uint.modulus w p))
      (g := fun v : BitVec w => v &&& ((1#w <<< bitlen) - Uint.modulus w p)) hx (fun _ _ h => h.andMask _)
  have := spec_koggeStoneInnerMany (M := M) (l := vs.map fun v =>
    (v ^^^ ((1#w <<< bitlen) - Uint.modulus w p), v &&& ((1#w <<< bitlen) - Uint.modulus w p))) bitlen
    (by simpa only [List.map_map, Function.comp_def] using a1)
    (by simpa only [List.map_map, Function.comp_def] using a2) hst
  refine this.mono ?_
  rintro r st'' ⟨hr, hst''⟩
  refine ⟨?_, hst''⟩
  rw [List.map_map] at hr
  convert hr using 1
  refine List.map_congr_left fun v hm => ?_
  have := ks_sub_const v (Uint.modulus w p) bitlen hb hw (hv v hm) (by omega) (by omega)
  rw [e] at this
  exact this.symm

theorem spec_lowDepthSubPCmux {x : PartyID → Share (BitVec w)} {v : Nat} (p B : Nat)
    (hw : B + 1 < w) (hx : IsBShare x (BitVec.ofNat w v)) (hv : v < 2 * p) (hp : p < 2 ^ B)
    (hst : Corr ty st) :
    Spec (M := M) (fun i => lowDepthSubPCmux p (x i) (B + 1)) st (fun r st' =>
      IsBShare r (BitVec.ofNat w (v % p)) ∧ Corr ty st') := by
  have h2 : 2 ^ (B + 1) = 2 * 2 ^ B := by rw [pow_succ]; omega
  have h3 : 2 ^ (B + 1) < 2 ^ w := Nat.pow_lt_pow_right (by decide) hw
  have e : (BitVec.ofNat w v).toNat = v := by
    rw [BitVec.toNat_ofNat]; exact Nat.mod_eq_of_lt (by omega)
  refine Spec.bind (spec_lowDepthBinarySubP p (B + 1) (by omega) hw hx (by omega) (by omega) (by omega)
    hst) ?_
  rintro y st' ⟨hy, hst'⟩
  rw [e] at hy
  have := spec_cmux (M := M) (isBShare_spread (hy.shr (B + 1)) (Uint.mask w B))
    (hy.andMask (Uint.mask w B)) (hx.andMask (Uint.mask w B)) hst'
  rwa [subP_sel p v B hw hp (by omega) hv] at this

theorem spec_lowDepthSubPCmuxMany {x : PartyID → List (Share (BitVec w))} {vs : List Nat} (p B : Nat)
    (hw : B + 1 < w) (hx : IsBShares x (vs.map (BitVec.ofNat w))) (hv : ∀ v ∈ vs, v < 2 * p)
    (h0 : 0 < p) (hp : p < 2 ^ B) (hst : Corr ty st) :
    Spec (M := M) (fun i => lowDepthSubPCmuxMany p (x i) (B + 1)) st (fun r st' =>
      IsBShares r (vs.map fun v => BitVec.ofNat w (v % p)) ∧ Corr ty st') := by
  have h2 : 2 ^ (B + 1) = 2 * 2 ^ B := by rw [pow_succ]; omega
  have h3 : 2 ^ (B + 1) < 2 ^ w := Nat.pow_lt_pow_right (by decide) hw
  have e : ∀ v ∈ vs, (BitVec.ofNat w v).toNat = v := by
    intro v hm
    have := hv v hm
    rw [BitVec.toNat_ofNat]; exact Nat.mod_eq_of_lt (by omega)
  refine Spec.bind (spec_lowDepthBinarySubPMany p (B + 1) (by omega) hw hx ?_ h0 (by omega) hst) ?_
  · intro v hm
    obtain ⟨u, hu, rfl⟩ := List.mem_map.1 hm
    rw [e u hu]
    have := hv u hu
    omega
  rintro y st' ⟨hy, hst'⟩
  have b1 : IsBShares (fun i => (x i).map fun (s : Share (BitVec w)) => s.andMask (Uint.mask w B)) _ :=
    Cols.map (f := fun _ (s : Share (BitVec w)) => s.andMask (Uint.mask w B))
      (g := fun v : BitVec w => v &&& Uint.mask w B) hx (fun _ _ h => h.andMask _)
  have b2 : IsBShares (fun i => (y i).map fun (s : Share (BitVec w)) => s.andMask (Uint.mask w B)) _ :=
    Cols.map (f := fun _ (s : Share (BitVec w)) => s.andMask (Uint.mask w B))
      (g := fun v : BitVec w => v &&& Uint.mask w B) hy (fun _ _ h => h.andMask _)
  have b3 : IsBShares (fun i => ((y i).map fun (s : Share (BitVec w)) => s.shr (B + 1)).map
      fun s => spread s (Uint.mask w B)) _ :=
    Cols.map (f := fun _ (s : Share (BitVec w)) => spread s (Uint.mask w B))
      (g := fun v : BitVec w => if v.getLsbD 0 then Uint.mask w B else 0#w)
      (Cols.map (f := fun _ (s : Share (BitVec w)) => s.shr (B + 1))
        (g := fun v : BitVec w => v >>> (B + 1)) (Q := IsBShare) hy (fun _ _ h => h.shr _))
      (fun _ _ h => isBShare_spread h _)
  have := spec_cmuxMany (M := M) b3 b2 b1 (by simp) (by simp) hst'
  refine this.mono ?_
  rintro r st'' ⟨hr, hst''⟩
  refine ⟨?_, hst''⟩
  simp only [List.map_map, zip_map_self, zipWith_map_self, Function.comp_def] at hr
  convert hr using 1
  refine List.map_congr_left fun v hm => ?_
  rw [e v hm]
  exact (subP_sel p v B hw hp (by omega) (hv v hm)).symm

theorem spec_lowDepthBinaryAddModP {x y : PartyID → Share (BitVec w)} {v u : Nat} (p B : Nat)
    (hB : 0 < B) (hw : B + 1 < w) (hx : IsBShare x (BitVec.ofNat w v))
    (hy : IsBShare y (BitVec.ofNat w u)) (hv : v < p) (hu : u < p) (hp : p < 2 ^ B)
    (hst : Corr ty st) :
    Spec (M := M) (fun i => lowDepthBinaryAddModP p (x i) (y i) B) st (fun r st' =>
      IsBShare r (BitVec.ofNat w ((v + u) % p)) ∧ Corr ty st') := by
  have h3 : 2 ^ B < 2 ^ w := Nat.pow_lt_pow_right (by decide) (by omega)
  have e : ∀ v, v < p → (BitVec.ofNat w v).toNat = v := by
    intro v hv
    rw [BitVec.toNat_ofNat]; exact Nat.mod_eq_of_lt (by omega)
  refine Spec.bind (spec_lowDepthBinaryAdd B hB hx hy (by rw [e v hv]; omega) (by rw [e u hu]; omega)
    hst) ?_
  rintro z st' ⟨hz, hst'⟩
  rw [← BitVec.ofNat_add] at hz
  exact spec_lowDepthSubPCmux p B hw hz (by omega) hp hst'

theorem spec_lowDepthBinaryAddModPMany {x y : PartyID → List (Share (BitVec w))}
    {l : List (Nat × Nat)} (p B : Nat)
    (hB : 0 < B) (hw : B + 1 < w) (hx : IsBShares x (l.map fun v => BitVec.ofNat w v.1))
    (hy : IsBShares y (l.map fun v => BitVec.ofNat w v.2)) (hl : ∀ v ∈ l, v.1 < p ∧ v.2 < p)
    (h0 : 0 < p) (hp : p < 2 ^ B) (hst : Corr ty st) :
    Spec (M := M) (fun i => lowDepthBinaryAddModPMany p (x i) (y i) B) st (fun r st' =>
      IsBShares r (l.map fun v => BitVec.ofNat w ((v.1 + v.2) % p)) ∧ Corr ty st') := by
  have h3 : 2 ^ B < 2 ^ w := Nat.pow_lt_pow_right (by decide) (by omega)
  have e : ∀ v, v < p → (BitVec.ofNat w v).toNat = v := by
    intro v hv
    rw [BitVec.toNat_ofNat]; exact Nat.mod_eq_of_lt (by omega)
  refine Spec.bind (spec_lowDepthBinaryAddMany (l := l.map fun v => (BitVec.ofNat w v.1, BitVec.ofNat w v.2))
    B hB (by simpa [Function.comp_def] using hx) (by simpa [Function.comp_def] using hy) ?_ hst) ?_
  · intro v hv
    obtain ⟨u, hu, rfl⟩ := List.mem_map.1 hv
    have := hl u hu
    simp only [e _ this.1, e _ this.2]
    omega
  rintro z st' ⟨hz, hst'⟩
  have := spec_lowDepthSubPCmuxMany (M := M) (vs := l.map fun v => v.1 + v.2) p B hw
    (by simpa [Function.comp_def, BitVec.ofNat_add] using hz)
    (by
      intro v hv
      obtain ⟨u, hu, rfl⟩ := List.mem_map.1 hv
      have := hl u hu
      omega) h0 hp hst'
  simpa [Function.comp_def] using this

theorem spec_lowDepthBinarySub {x y : PartyID → Share (BitVec w)} {v u : BitVec w} (bitlen : Nat)
    (hb : 0 < bitlen) (hw : bitlen < w) (hx : IsBShare x v) (hy : IsBShare y u)
    (hv : v.toNat < 2 ^ bitlen) (hu : u.toNat < 2 ^ bitlen) (hst : Corr ty st) :
    Spec (M := M) (fun i => lowDepthBinarySub (x i) (y i) bitlen) st (fun r st' =>
      IsBShare r (BitVec.ofNat w (v.toNat + 2 ^ bitlen - u.toNat)) ∧ Corr ty st') := by
  have hy' := hy.xorMask (Uint.mask w bitlen)
  refine Spec.bind (spec_and hx hy' hst) ?_
  rintro g st' ⟨hg, hst'⟩
  refine Spec.bind (spec_koggeStoneInner bitlen (hx.bxor hy') (hg.bxor ((hx.bxor hy').andMask 1#w)) hst')
    ?_
  rintro r st'' ⟨hr, hst''⟩
  refine Spec.pure ⟨?_, hst''⟩
  have := hr.xorMask 1#w
  rwa [ks_sub v u bitlen hb hw hv hu] at this

theorem spec_lowDepthBinarySubByConst {x : PartyID → Share (BitVec w)} {v : BitVec w} (u : BitVec w)
    (bits : Nat) (hb : 0 < bits) (hw : bits < w) (hx : IsBShare x v)
    (hv : v.toNat < 2 ^ bits) (h0 : 0 < u.toNat) (hu : u.toNat < 2 ^ bits) (hst : Corr ty st) :
    Spec (M := M) (fun i => lowDepthBinarySubByConst bits (x i) u) st (fun r st' =>
      IsBShare r (BitVec.ofNat w (v.toNat + 2 ^ bits - u.toNat)) ∧ Corr ty st') := by
  have := spec_koggeStoneInner (M := M) bits (hx.xorMask ((1#w <<< bits) - u))
    (hx.andMask ((1#w <<< bits) - u)) hst
  rwa [ks_sub_const v u bits hb hw hv h0 (by omega)] at this

theorem spec_lowDepthBinarySubFromConst {x : PartyID → Share (BitVec w)} {v : BitVec w} (u : BitVec w)
    (bits : Nat) (hb : 0 < bits) (hw : bits < w) (hx : IsBShare x v)
    (hv : v.toNat < 2 ^ bits) (hu : u.toNat < 2 ^ bits) (hst : Corr ty st) :
    Spec (M := M) (fun i => lowDepthBinarySubFromConst bits u (x i)) st (fun r st' =>
      IsBShare r (BitVec.ofNat w (u.toNat + 2 ^ bits - v.toNat)) ∧ Corr ty st') := by
  have hx' := hx.xorMask (Uint.mask w bits)
  have hp := hx'.xorMask u
  have hg := (hx'.andMask u).bxor (hp.andMask 1#w)
  refine Spec.bind (spec_koggeStoneInner bits hp hg hst) ?_
  rintro r st'' ⟨hr, hst''⟩
  refine Spec.pure ⟨?_, hst''⟩
  have := hr.xorMask 1#w
  have e := ks_sub u v bits hb hw hu hv
  simp only at e
  rw [BitVec.xor_comm u, BitVec.and_comm u] at e
  rwa [e] at this

end Verif.Rep3.Bin
