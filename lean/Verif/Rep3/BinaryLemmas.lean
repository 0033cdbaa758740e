import Verif.Rep3.Binary
import Verif.Rep3.Cols

/-!
# Lemmas about the binary protocols
-/

namespace Verif

open PartyID
open MPC (bail panicWith)

namespace Share
variable {w : Nat}
@[simp] theorem bxor_a (x y : Share (BitVec w)) : (x.bxor y).a = x.a ^^^ y.a := rfl
@[simp] theorem bxor_b (x y : Share (BitVec w)) : (x.bxor y).b = x.b ^^^ y.b := rfl
@[simp] theorem shl_a (x : Share (BitVec w)) (n : Nat) : (x.shl n).a = x.a <<< n := rfl
@[simp] theorem shl_b (x : Share (BitVec w)) (n : Nat) : (x.shl n).b = x.b <<< n := rfl
@[simp] theorem shr_a (x : Share (BitVec w)) (n : Nat) : (x.shr n).a = x.a >>> n := rfl
@[simp] theorem shr_b (x : Share (BitVec w)) (n : Nat) : (x.shr n).b = x.b >>> n := rfl
@[simp] theorem xorMask_a (x : Share (BitVec w)) (m) : (x.xorMask m).a = x.a ^^^ m := rfl
@[simp] theorem xorMask_b (x : Share (BitVec w)) (m) : (x.xorMask m).b = x.b ^^^ m := rfl
@[simp] theorem andMask_a (x : Share (BitVec w)) (m) : (x.andMask m).a = x.a &&& m := rfl
@[simp] theorem andMask_b (x : Share (BitVec w)) (m) : (x.andMask m).b = x.b &&& m := rfl
@[simp] theorem setBit_a (x : Share (BitVec w)) (n : Nat) : (x.setBit n).a = Uint.setBit x.a n := rfl
@[simp] theorem setBit_b (x : Share (BitVec w)) (n : Nat) : (x.setBit n).b = Uint.setBit x.b n := rfl
end Share

/-! ### Bit identities -/

section Bits

variable {w : Nat}

theorem Uint.getLsbD_mask (k i : Nat) : (Uint.mask w k).getLsbD i = (decide (i < w) && decide (i < k)) := by
  simp [Uint.mask, BitVec.getLsbD_ofNat, Nat.testBit_two_pow_sub_one]

theorem Uint.getElem_mask (k i : Nat) (h : i < w) : (Uint.mask w k)[i] = decide (i < k) := by
  rw [← BitVec.getLsbD_eq_getElem, Uint.getLsbD_mask]; simp [h]

theorem Uint.mask_toNat {k : Nat} (h : k ≤ w) : (Uint.mask w k).toNat = 2 ^ k - 1 := by
  have : 2 ^ k ≤ 2 ^ w := Nat.pow_le_pow_right (by decide) h
  have h1 : 0 < 2 ^ k := Nat.two_pow_pos k
  simp only [Uint.mask, BitVec.toNat_ofNat]
  exact Nat.mod_eq_of_lt (by omega)

theorem Uint.getLsbD_setBit (x : BitVec w) (k i : Nat) :
    (Uint.setBit x k).getLsbD i = (x.getLsbD i || (decide (i < w) && decide (i = k))) := by
  simp only [Uint.setBit, BitVec.getLsbD_or, BitVec.getLsbD_twoPow]
  cases x.getLsbD i
  · simp only [Bool.false_or]
    by_cases h : i = k
    · subst h; simp
    · have : ¬ k = i := fun e => h e.symm
      simp [h, this]
  · rfl

theorem bxor_perm (a b c a' b' c' : BitVec w) :
    (a ^^^ a') ^^^ (b ^^^ b') ^^^ (c ^^^ c') = (a ^^^ b ^^^ c) ^^^ (a' ^^^ b' ^^^ c') := by
  ext i hi
  simp only [BitVec.getElem_xor]
  cases a[i] <;> cases b[i] <;> cases c[i] <;> cases a'[i] <;> cases b'[i] <;> cases c'[i] <;> rfl

theorem bxor_mask3 (a b c m : BitVec w) :
    (a ^^^ m) ^^^ (b ^^^ m) ^^^ (c ^^^ m) = (a ^^^ b ^^^ c) ^^^ m := by
  ext i hi
  simp only [BitVec.getElem_xor]
  cases a[i] <;> cases b[i] <;> cases c[i] <;> cases m[i] <;> rfl

theorem band_mask3 (a b c m : BitVec w) :
    (a &&& m) ^^^ (b &&& m) ^^^ (c &&& m) = (a ^^^ b ^^^ c) &&& m := by
  ext i hi
  simp only [BitVec.getElem_xor, BitVec.getElem_and]
  cases a[i] <;> cases b[i] <;> cases c[i] <;> cases m[i] <;> rfl

theorem shl3 (a b c : BitVec w) (n : Nat) :
    (a <<< n) ^^^ (b <<< n) ^^^ (c <<< n) = (a ^^^ b ^^^ c) <<< n := by
  ext i hi
  simp only [BitVec.getElem_xor, BitVec.getElem_shiftLeft, hi]
  by_cases h : i < n <;> simp [h]

theorem shr3 (a b c : BitVec w) (n : Nat) :
    (a >>> n) ^^^ (b >>> n) ^^^ (c >>> n) = (a ^^^ b ^^^ c) >>> n := by
  ext i hi
  simp

theorem setBit3 (a b c : BitVec w) (n : Nat) :
    Uint.setBit a n ^^^ Uint.setBit b n ^^^ Uint.setBit c n = Uint.setBit (a ^^^ b ^^^ c) n := by
  ext i hi
  simp only [Uint.setBit, BitVec.getElem_xor, BitVec.getElem_or]
  cases a[i] <;> cases b[i] <;> cases c[i] <;> cases (BitVec.twoPow w n)[i] <;> rfl

theorem localAnd3 (a b c a' b' c' r0 r1 r2 : BitVec w) :
    ((a &&& a') ^^^ (a &&& c') ^^^ (c &&& a') ^^^ (r0 ^^^ r2)) ^^^
    ((b &&& b') ^^^ (b &&& a') ^^^ (a &&& b') ^^^ (r1 ^^^ r0)) ^^^
    ((c &&& c') ^^^ (c &&& b') ^^^ (b &&& c') ^^^ (r2 ^^^ r1)) =
    (a ^^^ b ^^^ c) &&& (a' ^^^ b' ^^^ c') := by
  ext i hi
  simp only [BitVec.getElem_xor, BitVec.getElem_and]
  generalize a[i] = a; generalize b[i] = b; generalize c[i] = c
  generalize a'[i] = a'; generalize b'[i] = b'; generalize c'[i] = c'
  generalize r0[i] = r0; generalize r1[i] = r1; generalize r2[i] = r2
  revert a b c a' b' c' r0 r1 r2
  decide

end Bits

/-! ### Sharings -/

section IsBShareLemmas

variable {w : Nat} {s t : PartyID → Share (BitVec w)} {v u : BitVec w}

theorem IsBShare.b0 (h : IsBShare s v) : (s ID0).b = (s ID2).a := h.1 ID0
theorem IsBShare.b1 (h : IsBShare s v) : (s ID1).b = (s ID0).a := h.1 ID1
theorem IsBShare.b2 (h : IsBShare s v) : (s ID2).b = (s ID1).a := h.1 ID2

theorem isBShare_mk {x : PartyID → BitVec w} (h : x ID0 ^^^ x ID1 ^^^ x ID2 = v) :
    IsBShare (fun i => Share.mk (x i) (x i.prev)) v := ⟨fun _ => rfl, h⟩

theorem IsBShare.bxor (hs : IsBShare s v) (ht : IsBShare t u) :
    IsBShare (fun i => (s i).bxor (t i)) (v ^^^ u) := by
  refine ⟨fun i => by simp [hs.1 i, ht.1 i], ?_⟩
  rw [← hs.2, ← ht.2]
  exact bxor_perm _ _ _ _ _ _

theorem IsBShare.xorMask (hs : IsBShare s v) (m : BitVec w) :
    IsBShare (fun i => (s i).xorMask m) (v ^^^ m) := by
  refine ⟨fun i => by simp [hs.1 i], ?_⟩
  rw [← hs.2]
  exact bxor_mask3 _ _ _ _

theorem IsBShare.andMask (hs : IsBShare s v) (m : BitVec w) :
    IsBShare (fun i => (s i).andMask m) (v &&& m) := by
  refine ⟨fun i => by simp [hs.1 i], ?_⟩
  rw [← hs.2]
  exact band_mask3 _ _ _ _

theorem IsBShare.shl (hs : IsBShare s v) (n : Nat) :
    IsBShare (fun i => (s i).shl n) (v <<< n) := by
  refine ⟨fun i => by simp [hs.1 i], ?_⟩
  rw [← hs.2]
  exact shl3 _ _ _ _

theorem IsBShare.shr (hs : IsBShare s v) (n : Nat) :
    IsBShare (fun i => (s i).shr n) (v >>> n) := by
  refine ⟨fun i => by simp [hs.1 i], ?_⟩
  rw [← hs.2]
  exact shr3 _ _ _ _

theorem IsBShare.setBit (hs : IsBShare s v) (n : Nat) :
    IsBShare (fun i => (s i).setBit n) (Uint.setBit v n) := by
  refine ⟨fun i => by simp [hs.1 i], ?_⟩
  rw [← hs.2]
  exact setBit3 _ _ _ _

theorem IsBShare.xorPublic (hs : IsBShare s v) (m : BitVec w) :
    IsBShare (fun i => Rep3.Bin.xorPublic (s i) m i) (v ^^^ m) := by
  refine ⟨fun i => ?_, ?_⟩
  · cases i <;> simp [Rep3.Bin.xorPublic, hs.b0, hs.b1, hs.b2]
  · rw [← hs.2]
    simp only [Rep3.Bin.xorPublic]
    grind

theorem IsBShare.promote (m : BitVec w) : IsBShare (fun i => Rep3.Bin.promote i m) m := by
  refine ⟨fun i => ?_, ?_⟩
  · cases i <;> simp [Rep3.Bin.promote, Share.bzero]
  · simp [Rep3.Bin.promote, Share.bzero]

theorem IsBShare.zero : IsBShare (fun _ => (Share.bzero : Share (BitVec w))) 0#w :=
  ⟨fun _ => rfl, by simp [Share.bzero]⟩

theorem IsBShare.unique (h : IsBShare s v) (h' : IsBShare s u) : v = u := h.2.symm.trans h'.2

theorem and_one_eq (v : BitVec w) : v &&& 1#w = if v.getLsbD 0 then 1#w else 0#w := by
  ext i hi
  rw [apply_ite (fun x : BitVec w => x[i]), BitVec.getElem_and, BitVec.getElem_one]
  by_cases h : i = 0
  · subst h; simp [← BitVec.getLsbD_eq_getElem]
  · simp [h]

theorem and_one_lt (v : BitVec w) : (v &&& 1#w).toNat < 2 := by
  rw [and_one_eq]
  split
  · rw [BitVec.toNat_ofNat]
    exact lt_of_le_of_lt (Nat.mod_le _ _) (by decide)
  · simp

/-- Masking with one leaves a sharing of the lowest bit. -/
theorem IsBShare.lowBit (h : IsBShare s v) :
    IsBitShare (fun i => (s i).andMask 1#w) (v.getLsbD 0) := by
  refine ⟨?_, fun i => ⟨and_one_lt _, and_one_lt _⟩⟩
  rw [← and_one_eq]
  exact h.andMask _

end IsBShareLemmas

namespace Rep3.Bin

variable {R M : Type} {w : Nat} {ty : A2BType} {st : PartyID → Rep3State R}

section

variable [Sample R (BitVec w)]

theorem spec_maskBits (n : Nat) (hst : Corr ty st) :
    Spec (M := M) (fun _ => maskBits (w := w) n) st (fun m st' =>
      (∃ r : PartyID → BitVec w, m = fun i => r i ^^^ r i.prev) ∧ Corr ty st') := by
  refine Spec.bind (spec_withRand (f := fun _ => Rep3Rand.randomUint w n)
    (Q := fun r st' => (∃ x : PartyID → BitVec w, r = fun i => (x i, x i.prev)) ∧ Corr ty st')
    ⟨⟨fun i => (Sample.sample (st i).rngs.rand.rng1).1 &&& Uint.mask w n, ?_⟩, hst.setRand ?_⟩) ?_
  · funext i; simp [Rep3Rand.randomUint, Rep3Rand.randomPair, hst.rand i]
  · intro i; simp [Rep3Rand.randomUint, Rep3Rand.randomPair, hst.rand i]
  rintro r st' ⟨⟨x, rfl⟩, hst'⟩
  exact Spec.pure ⟨⟨x, rfl⟩, hst'⟩

/-- The masked local products are the components of a sharing of the conjunction. -/
theorem IsBShare.masked {x y : PartyID → Share (BitVec w)} {v u : BitVec w} (hx : IsBShare x v)
    (hy : IsBShare y u) (r : PartyID → BitVec w) :
    ((x ID0).localAnd (y ID0) ^^^ (r ID0 ^^^ r ID2)) ^^^
    ((x ID1).localAnd (y ID1) ^^^ (r ID1 ^^^ r ID0)) ^^^
    ((x ID2).localAnd (y ID2) ^^^ (r ID2 ^^^ r ID1)) = v &&& u := by
  rw [← hx.2, ← hy.2]
  simp only [Share.localAnd, hx.b0, hx.b1, hx.b2, hy.b0, hy.b1, hy.b2]
  exact localAnd3 _ _ _ _ _ _ _ _ _

variable [UintCodec M w]

theorem spec_and {x y : PartyID → Share (BitVec w)} {v u : BitVec w} (hx : IsBShare x v)
    (hy : IsBShare y u) (hst : Corr ty st) :
    Spec (M := M) (fun i => and (x i) (y i)) st
      (fun r st' => IsBShare r (v &&& u) ∧ Corr ty st') := by
  refine Spec.bind (spec_maskBits w hst) ?_
  rintro m st' ⟨⟨r, rfl⟩, hst'⟩
  refine Spec.bind spec_reshare ?_
  rintro z st'' ⟨rfl, rfl⟩
  exact Spec.pure ⟨isBShare_mk (x := fun i => (x i).localAnd (y i) ^^^ (r i ^^^ r i.prev))
    (IsBShare.masked hx hy r), hst'⟩

/-- Fresh components: a list of XOR-additive values that is replicated by resharing. -/
theorem isBShares_replicate {l : PartyID → List (BitVec w)} {vs : List (BitVec w)}
    (h : Cols (fun (x : PartyID → BitVec w) v => x ID0 ^^^ x ID1 ^^^ x ID2 = v) l vs) :
    IsBShares (fun i => List.zipWith Share.mk (l i) (l i.prev)) vs := by
  obtain ⟨l, rfl, hl⟩ := h
  refine ⟨l.map fun x i => Share.mk (x i) (x i.prev), ?_, ?_⟩
  · funext i
    simp [List.zipWith_map, List.zipWith_self]
  · rw [List.forall₂_map_left_iff]
    exact hl.imp fun x v h => isBShare_mk h

theorem spec_andVec {x y : PartyID → List (Share (BitVec w))} {vs us : List (BitVec w)}
    (hx : IsBShares x vs) (hy : IsBShares y us) (hst : Corr ty st) :
    Spec (M := M) (fun i => andVec (x i) (y i)) st
      (fun r st' => IsBShares r (List.zipWith (· &&& ·) vs us) ∧ Corr ty st') := by
  refine Spec.bind (Spec.mapCols
    (Q := fun (x : PartyID → BitVec w) v => x ID0 ^^^ x ID1 ^^^ x ID2 = v)
    (g := fun (vu : BitVec w × BitVec w) => vu.1 &&& vu.2) (Cols.zip hx hy) ?_ hst) ?_
  · rintro z ⟨v, u⟩ st ⟨h1, h2⟩ hst
    refine Spec.bind (spec_maskBits w hst) ?_
    rintro m st' ⟨⟨r, rfl⟩, hst'⟩
    exact Spec.pure ⟨IsBShare.masked h1 h2 r, hst'⟩
  · rintro l st' ⟨hl, hst'⟩
    refine Spec.bind spec_reshare ?_
    rintro z st'' ⟨rfl, rfl⟩
    refine Spec.pure ⟨?_, hst'⟩
    have := isBShares_replicate hl
    simpa [List.zip, List.map_zipWith] using this

theorem spec_or {x y : PartyID → Share (BitVec w)} {v u : BitVec w} (hx : IsBShare x v)
    (hy : IsBShare y u) (hst : Corr ty st) :
    Spec (M := M) (fun i => or (x i) (y i)) st
      (fun r st' => IsBShare r (v ||| u) ∧ Corr ty st') := by
  refine Spec.bind (spec_and hx hy hst) ?_
  rintro d st' ⟨hd, hst'⟩
  refine Spec.pure ⟨?_, hst'⟩
  have := (hx.bxor hy).bxor hd
  have e : v ^^^ u ^^^ (v &&& u) = v ||| u := by
    ext i hi
    simp only [BitVec.getElem_xor, BitVec.getElem_and, BitVec.getElem_or]
    cases v[i] <;> cases u[i] <;> rfl
  rwa [e] at this

theorem isBShare_orPublic {x : PartyID → Share (BitVec w)} {v : BitVec w} (hx : IsBShare x v)
    (m : BitVec w) : IsBShare (fun i => orPublic (x i) m i) (v ||| m) := by
  have := (hx.xorPublic m).bxor (hx.andMask m)
  have e : v ^^^ m ^^^ (v &&& m) = v ||| m := by
    ext i hi
    simp only [BitVec.getElem_xor, BitVec.getElem_and, BitVec.getElem_or]
    cases v[i] <;> cases m[i] <;> rfl
  rwa [e] at this

theorem spec_open {x : PartyID → Share (BitVec w)} {v : BitVec w} (hx : IsBShare x v) :
    Spec (M := M) (fun i => openShare (x i)) st (fun r st' => (r = fun _ => v) ∧ st' = st) := by
  refine Spec.bind spec_reshare ?_
  rintro z st'' ⟨rfl, rfl⟩
  refine Spec.pure ⟨?_, rfl⟩
  funext i
  have := hx.2
  cases i <;> simp only [ID0_prev, ID1_prev, ID2_prev, hx.b0, hx.b1, hx.b2, ← this] <;> grind

/-- Bitwise select. -/
def sel (c a b : BitVec w) : BitVec w := (c &&& a) ||| (~~~c &&& b)

theorem sel_eq (c a b : BitVec w) : (c &&& (b ^^^ a)) ^^^ b = sel c a b := by
  ext i hi
  simp only [sel, BitVec.getElem_xor, BitVec.getElem_and, BitVec.getElem_or, BitVec.getElem_not]
  cases c[i] <;> cases a[i] <;> cases b[i] <;> rfl

theorem spec_cmux {c x y : PartyID → Share (BitVec w)} {z v u : BitVec w} (hc : IsBShare c z)
    (hx : IsBShare x v) (hy : IsBShare y u) (hst : Corr ty st) :
    Spec (M := M) (fun i => cmux (c i) (x i) (y i)) st
      (fun r st' => IsBShare r (sel z v u) ∧ Corr ty st') := by
  refine Spec.bind (spec_and hc (hy.bxor hx) hst) ?_
  rintro d st' ⟨hd, hst'⟩
  refine Spec.pure ⟨?_, hst'⟩
  have := hd.bxor hy
  rwa [sel_eq] at this

theorem spec_cmuxMany {c x y : PartyID → List (Share (BitVec w))} {zs vs us : List (BitVec w)}
    (hc : IsBShares c zs) (hx : IsBShares x vs) (hy : IsBShares y us)
    (h1 : zs.length = vs.length) (h2 : zs.length = us.length) (hst : Corr ty st) :
    Spec (M := M) (fun i => cmuxMany (c i) (x i) (y i)) st (fun r st' =>
      IsBShares r (List.zipWith (fun z vu => sel z vu.1 vu.2) zs (vs.zip us)) ∧ Corr ty st') := by
  have l1 : ∀ i, ¬ (c i).length ≠ (x i).length := fun i => by
    rw [Cols.length hc, Cols.length hx]; simp [h1]
  have l2 : ∀ i, ¬ (c i).length ≠ (y i).length := fun i => by
    rw [Cols.length hc, Cols.length hy]; simp [h2]
  simp only [cmuxMany, if_neg (l1 _), if_neg (l2 _)]
  refine Spec.bind (spec_andVec hc (Cols.zipWith (f := fun _ => Share.bxor) (g := (· ^^^ ·)) hy hx
    (fun _ _ _ _ h h' => h.bxor h')) hst) ?_
  rintro d st' ⟨hd, hst'⟩
  refine Spec.pure ⟨?_, hst'⟩
  have := Cols.zipWith (W := IsBShare) (f := fun _ => Share.bxor) (g := (· ^^^ ·)) hd hy
    (fun _ _ _ _ h h' => h.bxor h')
  show Cols IsBShare _ _
  convert this using 1
  apply List.ext_getElem
  · simp; omega
  · intro n hn hn'
    simp [sel_eq]

theorem spec_orLevel {x : PartyID → List (Share (BitVec w))} {vs : List (BitVec w)}
    (hx : IsBShares x vs) (hst : Corr ty st) :
    Spec (M := M) (fun i => orLevel (x i)) st (fun r st' =>
      IsBShares r (List.zipWith (· ||| ·) (vs.take (vs.length / 2))
        ((vs.drop (vs.length / 2)).take (vs.length / 2)) ++
        (vs.drop (vs.length / 2)).drop (vs.length / 2)) ∧ Corr ty st') := by
  have hl := Cols.length hx
  simp only [orLevel, hl]
  refine Spec.bind (Spec.mapCols (Q := IsBShare)
    (g := fun (vu : BitVec w × BitVec w) => vu.1 ||| vu.2)
    (Cols.zip (Cols.take hx _) (Cols.take (Cols.drop hx _) _)) ?_ hst) ?_
  · rintro z ⟨v, u⟩ st ⟨h1, h2⟩ hst
    exact spec_or h1 h2 hst
  · rintro r st' ⟨hr, hst'⟩
    refine Spec.pure ⟨?_, hst'⟩
    have := Cols.append hr (Cols.drop (Cols.drop hx (vs.length / 2)) (vs.length / 2))
    show Cols IsBShare _ _
    simpa [List.zip, List.map_zipWith] using this

theorem foldl_or_zip (a b : List (BitVec w)) (h : a.length = b.length) (z : BitVec w) :
    (List.zipWith (· ||| ·) a b).foldl (· ||| ·) z = (a ++ b).foldl (· ||| ·) z := by
  have hz : ∀ (l : List (BitVec w)) (z y : BitVec w), l.foldl (· ||| ·) (z ||| y) =
      l.foldl (· ||| ·) z ||| y := by
    intro l
    induction l with
    | nil => intro z y; rfl
    | cons x l ih =>
      intro z y
      simp only [List.foldl_cons]
      rw [show z ||| y ||| x = z ||| x ||| y by
        rw [BitVec.or_assoc, BitVec.or_comm y x, ← BitVec.or_assoc], ih]
  induction a generalizing b z with
  | nil =>
    cases b with
    | nil => rfl
    | cons _ _ => simp at h
  | cons x a ih =>
    cases b with
    | nil => simp at h
    | cons y b =>
      simp only [List.length_cons, Nat.add_right_cancel_iff] at h
      simp only [List.zipWith_cons_cons, List.foldl_cons, List.cons_append, List.foldl_append]
      rw [ih b h, ← BitVec.or_assoc, hz (a ++ b), List.foldl_append, hz b]

theorem spec_orLoop (fuel : Nat) {x : PartyID → List (Share (BitVec w))} {vs : List (BitVec w)}
    (hx : IsBShares x vs) (h0 : vs ≠ []) (hf : vs.length < fuel + 1) (hst : Corr ty st) :
    Spec (M := M) (fun i => orLoop (fuel + 1) (x i)) st (fun r st' =>
      IsBShare r (vs.foldl (· ||| ·) 0#w) ∧ Corr ty st') := by
  induction fuel generalizing x vs st with
  | zero =>
    have : vs.length = 0 := by omega
    simp_all
  | succ fuel ih =>
    have hl := Cols.length hx
    simp only [orLoop, hl]
    by_cases h1 : vs.length > 1
    · simp only [if_pos h1]
      refine Spec.bind (spec_orLevel hx hst) ?_
      rintro r st' ⟨hr, hst'⟩
      set k := vs.length / 2 with hk
      have hlen : (List.zipWith (· ||| ·) (vs.take k) ((vs.drop k).take k) ++
          (vs.drop k).drop k).length = vs.length - k := by
        simp; omega
      have key := ih hr (by intro h; rw [h] at hlen; simp at hlen; omega) (by rw [hlen]; omega) hst'
      refine key.mono ?_
      rintro r st'' ⟨h, h'⟩
      refine ⟨?_, h'⟩
      rw [List.foldl_append, foldl_or_zip _ _ (by simp; omega), ← List.foldl_append,
        List.append_assoc, List.take_append_drop, List.take_append_drop] at h
      exact h
    · simp only [if_neg h1]
      obtain ⟨v, rfl⟩ : ∃ v, vs = [v] := by
        match vs, h0 with
        | [v], _ => exact ⟨v, rfl⟩
        | _ :: _ :: _, _ => simp at h1
      obtain ⟨l, rfl, hl'⟩ := hx
      cases hl' with
      | cons h ht =>
        cases ht
        simp only [List.map_cons, List.map_nil]
        refine Spec.pure ⟨?_, hst⟩
        simpa using h

theorem spec_orTree {x : PartyID → List (Share (BitVec w))} {vs : List (BitVec w)}
    (hx : IsBShares x vs) (h0 : vs ≠ []) (hst : Corr ty st) :
    Spec (M := M) (fun i => orTree (x i)) st (fun r st' =>
      IsBShare r (vs.foldl (· ||| ·) 0#w) ∧ Corr ty st') := by
  have hl := Cols.length hx
  simp only [orTree, hl]
  exact spec_orLoop _ hx h0 (by omega) hst

/-! ### Zero test -/

/-- One level of the AND tree on plain values. -/
def zeroStep (len : Nat) (v : BitVec w) : BitVec w :=
  let v := if len % 2 = 1 then Uint.setBit v len else v
  (v &&& Uint.mask w ((len + 1) / 2)) &&& ((v >>> ((len + 1) / 2)) &&& Uint.mask w ((len + 1) / 2))

theorem getLsbD_zeroStep (len : Nat) (hlen : 1 < len) (hw : len < w) (v : BitVec w) (j : Nat)
    (hj : j < (len + 1) / 2) : (zeroStep len v).getLsbD j =
      (v.getLsbD j && (if j + (len + 1) / 2 < len then v.getLsbD (j + (len + 1) / 2) else true)) := by
  have hjw : j < w := by omega
  unfold zeroStep
  by_cases ho : len % 2 = 1
  · simp only [ho, if_true, BitVec.getLsbD_and, Uint.getLsbD_setBit, Uint.getLsbD_mask,
      BitVec.getLsbD_ushiftRight, hj, hjw, decide_true, Bool.and_true, Bool.true_and]
    have e1 : decide (j = len) = false := by simp; omega
    have e2 : (len + 1) / 2 + j = j + (len + 1) / 2 := Nat.add_comm _ _
    rw [e1, Bool.or_false, e2]
    by_cases h : j + (len + 1) / 2 < len
    · have e3 : decide (j + (len + 1) / 2 = len) = false := by simp; omega
      simp [h, e3]
    · have e3 : j + (len + 1) / 2 = len := by omega
      simp [e3, hw]
  · simp only [ho, if_false, BitVec.getLsbD_and, Uint.getLsbD_mask, BitVec.getLsbD_ushiftRight, hj,
      hjw, decide_true, Bool.and_true]
    have h : j + (len + 1) / 2 < len := by omega
    simp [h, Nat.add_comm]

/-- Repeating the step leaves the conjunction of the lowest `len` bits in bit 0. -/
def zeroFold (len : Nat) (v : BitVec w) : BitVec w :=
  if len > 1 then zeroFold ((len + 1) / 2) (zeroStep len v) else v
termination_by len
decreasing_by omega

theorem getLsbD_zeroFold (len : Nat) (h0 : 0 < len) (hw : len < w) (v : BitVec w) :
    (zeroFold len v).getLsbD 0 = true ↔ ∀ j < len, v.getLsbD j = true := by
  induction len using Nat.strongRecOn generalizing v with
  | _ len ih =>
    rw [zeroFold]
    by_cases h1 : len > 1
    · rw [if_pos h1, ih _ (by omega) (by omega) (by omega)]
      constructor
      · intro h j hj
        by_cases hj2 : j < (len + 1) / 2
        · have := h j hj2
          rw [getLsbD_zeroStep len h1 hw v j hj2] at this
          simp only [Bool.and_eq_true] at this
          exact this.1
        · have := h (j - (len + 1) / 2) (by omega)
          rw [getLsbD_zeroStep len h1 hw v _ (by omega)] at this
          rw [show j - (len + 1) / 2 + (len + 1) / 2 = j by omega, if_pos hj] at this
          simp only [Bool.and_eq_true] at this
          exact this.2
      · intro h j hj
        rw [getLsbD_zeroStep len h1 hw v j hj, h j (by omega)]
        split
        · rename_i h2; rw [h _ h2]; rfl
        · rfl
    · rw [if_neg h1]
      have : len = 1 := by omega
      subst this
      simp

theorem spec_isZeroLoop (len : Nat) {x : PartyID → Share (BitVec w)} {v : BitVec w}
    (hx : IsBShare x v) (hst : Corr ty st) :
    Spec (M := M) (fun i => isZeroLoop len (x i)) st
      (fun r st' => IsBShare r (zeroFold len v) ∧ Corr ty st') := by
  induction len using Nat.strongRecOn generalizing x v st with
  | _ len ih =>
    simp only [isZeroLoop.eq_def len]
    rw [zeroFold]
    by_cases h1 : len > 1
    · simp only [if_pos h1]
      by_cases ho : len % 2 = 1
      · simp only [if_pos ho]
        refine Spec.bind (spec_and ((hx.setBit len).andMask _) (((hx.setBit len).shr _).andMask _) hst) ?_
        rintro r st' ⟨hr, hst'⟩
        have := ih ((len + 1) / 2) (by omega) (x := r) (v := zeroStep len v) (st := st')
          (by simpa [zeroStep, ho] using hr) hst'
        exact this
      · simp only [if_neg ho]
        have e : len / 2 = (len + 1) / 2 := by omega
        refine Spec.bind (spec_and (hx.andMask _) ((hx.shr _).andMask _) hst) ?_
        rintro r st' ⟨hr, hst'⟩
        have := ih ((len + 1) / 2) (by omega) (x := r) (v := zeroStep len v) (st := st')
          (by simpa [zeroStep, ho, e] using hr) hst'
        exact this
    · simp only [if_neg h1]
      exact Spec.pure ⟨hx, hst⟩

theorem spec_isZeroLoopMany (len : Nat) {x : PartyID → List (Share (BitVec w))} {vs : List (BitVec w)}
    (hx : IsBShares x vs) (hst : Corr ty st) :
    Spec (M := M) (fun i => isZeroLoopMany len (x i)) st
      (fun r st' => IsBShares r (vs.map (zeroFold len)) ∧ Corr ty st') := by
  induction len using Nat.strongRecOn generalizing x vs st with
  | _ len ih =>
    simp only [isZeroLoopMany.eq_def len]
    by_cases h1 : len > 1
    · have ez : (zeroFold len : BitVec w → BitVec w) =
          fun v => zeroFold ((len + 1) / 2) (zeroStep len v) := by
        funext v; rw [zeroFold, if_pos h1]
      simp only [if_pos h1]
      have step : ∀ (y : PartyID → List (Share (BitVec w))) (us : List (BitVec w)), IsBShares y us →
          ∀ k, Cols IsBShare (fun i => (y i).map fun s => s.andMask (Uint.mask w k))
            (us.map fun u : BitVec w => u &&& Uint.mask w k) ∧
          Cols IsBShare (fun i => (y i).map fun s => (s.shr k).andMask (Uint.mask w k))
            (us.map fun u : BitVec w => (u >>> k) &&& Uint.mask w k) := by
        intro y us hy k
        exact ⟨Cols.map hy fun x v h => h.andMask _, Cols.map hy fun x v h => (h.shr k).andMask _⟩
      by_cases ho : len % 2 = 1
      · simp only [if_pos ho]
        have hset : IsBShares (fun i => (x i).map fun s => s.setBit len)
            (vs.map fun v => Uint.setBit v len) := Cols.map hx fun x v h => h.setBit len
        obtain ⟨s1, s2⟩ := step _ _ hset ((len + 1) / 2)
        refine Spec.bind (spec_andVec s1 s2 hst) ?_
        rintro r st' ⟨hr, hst'⟩
        have := ih ((len + 1) / 2) (by omega) (x := r) (vs := vs.map (zeroStep len)) (st := st')
          (by
            convert hr using 1
            simp only [List.map_map, List.zipWith_map, List.zipWith_self]
            refine List.map_congr_left fun v _ => ?_
            simp [zeroStep, ho]) hst'
        rw [List.map_map] at this
        rw [ez]
        exact this
      · simp only [if_neg ho]
        obtain ⟨s1, s2⟩ := step _ _ hx (len / 2)
        have e : len / 2 = (len + 1) / 2 := by omega
        refine Spec.bind (spec_andVec s1 s2 hst) ?_
        rintro r st' ⟨hr, hst'⟩
        have := ih ((len + 1) / 2) (by omega) (x := r) (vs := vs.map (zeroStep len)) (st := st')
          (by
            convert hr using 1
            simp only [List.zipWith_map, List.zipWith_self]
            refine List.map_congr_left fun v _ => ?_
            simp [zeroStep, ho, e]) hst'
        rw [List.map_map] at this
        rw [ez]
        exact this
    · have ez : (zeroFold len : BitVec w → BitVec w) = id := by
        funext v; rw [zeroFold, if_neg h1]; rfl
      simp only [if_neg h1]
      rw [ez, List.map_id]
      exact Spec.pure ⟨hx, hst⟩

theorem zero_iff (bits : Nat) (h0 : 0 < bits) (hw : bits < w) (v : BitVec w) :
    (zeroFold bits (v ^^^ Uint.mask w bits)).getLsbD 0 = decide (v.toNat % 2 ^ bits = 0) := by
  rw [Bool.eq_iff_iff, getLsbD_zeroFold bits h0 hw, decide_eq_true_iff]
  constructor
  · intro h
    apply Nat.eq_of_testBit_eq
    intro j
    rw [Nat.testBit_mod_two_pow, Nat.zero_testBit]
    by_cases hj : j < bits
    · have := h j hj
      rw [BitVec.getLsbD_xor, Uint.getLsbD_mask] at this
      simp only [show j < w by omega, hj, decide_true, Bool.and_true, Bool.xor_true,
        Bool.not_eq_true'] at this
      simp only [BitVec.getLsbD] at this
      simp [this]
    · simp [hj]
  · intro h j hj
    have := congrArg (fun n => n.testBit j) h
    simp only [Nat.testBit_mod_two_pow, Nat.zero_testBit, hj, decide_true, Bool.true_and] at this
    rw [BitVec.getLsbD_xor, Uint.getLsbD_mask]
    simp only [BitVec.getLsbD, this, show j < w by omega, hj]
    rfl

theorem zero_iff' (bits : Nat) (h0 : 0 < bits) (hw : bits < w) (v : BitVec w) :
    (zeroFold bits ((v ^^^ Uint.mask w bits) &&& Uint.mask w bits)).getLsbD 0 =
      decide (v.toNat % 2 ^ bits = 0) := by
  rw [← zero_iff bits h0 hw v, Bool.eq_iff_iff, getLsbD_zeroFold bits h0 hw,
    getLsbD_zeroFold bits h0 hw]
  refine forall₂_congr fun j hj => ?_
  rw [BitVec.getLsbD_and, Uint.getLsbD_mask]
  simp [show j < w by omega, hj]

theorem spec_isZero (bits : Nat) (h0 : 0 < bits) (hw : bits < w) {x : PartyID → Share (BitVec w)}
    {v : BitVec w} (hx : IsBShare x v) (hst : Corr ty st) :
    Spec (M := M) (fun i => isZero bits (x i)) st
      (fun r st' => IsBitShare r (decide (v.toNat % 2 ^ bits = 0)) ∧ Corr ty st') := by
  refine Spec.bind (spec_isZeroLoop bits (hx.xorMask _) hst) ?_
  rintro r st' ⟨hr, hst'⟩
  refine Spec.pure ⟨?_, hst'⟩
  rw [← zero_iff bits h0 hw v]
  exact hr.lowBit

theorem spec_isZeroMany (bits : Nat) (h0 : 0 < bits) (hw : bits < w)
    {x : PartyID → List (Share (BitVec w))} {vs : List (BitVec w)} (hx : IsBShares x vs)
    (hst : Corr ty st) :
    Spec (M := M) (fun i => isZeroMany bits (x i)) st (fun r st' =>
      IsBitShares r (vs.map fun v => decide (v.toNat % 2 ^ bits = 0)) ∧ Corr ty st') := by
  have hm : IsBShares (fun i => (x i).map fun s =>
      (s.xorMask (Uint.mask w bits)).andMask (Uint.mask w bits))
      (vs.map fun v => (v ^^^ Uint.mask w bits) &&& Uint.mask w bits) :=
    Cols.map hx fun x v h => (h.xorMask _).andMask _
  refine Spec.bind (spec_isZeroLoopMany bits hm hst) ?_
  rintro r st' ⟨hr, hst'⟩
  refine Spec.pure ⟨?_, hst'⟩
  have := Cols.map (Q := IsBitShare) (f := fun _ s => s.andMask 1#w)
    (g := fun v : BitVec w => v.getLsbD 0) hr fun x v h => h.lowBit
  rw [List.map_map, List.map_map] at this
  show Cols IsBitShare _ _
  convert this using 1
  refine List.map_congr_left fun v _ => ?_
  rw [← zero_iff' bits h0 hw v]
  rfl

end

end Rep3.Bin

end Verif
