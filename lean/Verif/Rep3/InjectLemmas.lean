import Verif.Rep3.ConversionLemmas
import Verif.Yao.StreamLemmas

/-!
# Lemmas about bit injection, the conversion selectors and the comparisons
-/

namespace Verif.Rep3

open PartyID
open MPC (bail panicWith)

variable {R M : Type} {w p : Nat} {ty : A2BType} {st : PartyID → Rep3State R}

section Inject

theorem _root_.Verif.IsBitShare.isBit {x : PartyID → Share (BitVec w)} {b : Bool} (h : IsBitShare x b) (i : PartyID) :
    Uint.isBit (x i).a = true ∧ Uint.isBit (x i).b = true := by
  obtain ⟨ha, hb⟩ := h.2 i
  simp [Uint.isBit, ha, hb]

theorem _root_.Verif.IsBitShare.bits {x : PartyID → Share (BitVec w)} {b : Bool} (hw : 0 < w) (h : IsBitShare x b) :
    ((x ID0).a.getLsbD 0 ^^ (x ID1).a.getLsbD 0 ^^ (x ID2).a.getLsbD 0) = b := by
  have := congrArg (fun v => v.getLsbD 0) h.1.2
  simp only [BitVec.getLsbD_xor] at this
  rw [this]
  cases b <;> simp [hw]

/-- The arithmetic behind bit injection: `b0 ⊕ (b1 ⊕ b2)` over the integers, in two steps. -/
theorem inject_sum (b0 b1 b2 : Bool) (m0 m1 m2 : ZMod p) (hm : m0 + m1 + m2 = 0) :
    (m0 + bitVal b2 - bitVal b2 * m0 - bitVal b2 * m0) +
      (if b1 ^^ b0 then m1 + 1 else m1) +
      (m2 - bitVal b2 * ((if b1 ^^ b0 then m1 + 1 else m1) + m2) -
        bitVal b2 * ((if b1 ^^ b0 then m1 + 1 else m1) + m2)) = bitVal (b0 ^^ b1 ^^ b2) := by
  cases b0 <;> cases b1 <;> cases b2 <;> simp [bitVal] <;> grind

variable [Sample R (ZMod p)] [Codec M (List (ZMod p))]

theorem spec_bitInjectFromBits (b : PartyID → Bool) (hst : Corr ty st) :
    Spec (M := M) (fun i => bitInjectFromBits (p := p) (b i, b i.prev)) st (fun r st' =>
      IsShare r (bitVal (b ID0 ^^ b ID1 ^^ b ID2)) ∧ Corr ty st') := by
  refine Spec3 ?_
  simp [bitInjectFromBits, stateId, hst.id, maskElem, withRand, sendNext, recvPrev, sendTo, recvFrom,
    sendMany, recvMany, exactlyOne, sendNextMany, recvPrevMany, MPC.recv_apply, Rep3Rand.masking,
    Rep3Rand.randomPair, hst.rand]
  refine ⟨⟨?_, ?_⟩, ?_⟩
  · intro i; cases i <;> rfl
  · have := inject_sum (b ID0) (b ID1) (b ID2)
      ((Sample.sample (α := ZMod p) (st ID0).rngs.rand.rng1).1 - (Sample.sample (st ID2).rngs.rand.rng1).1)
      ((Sample.sample (st ID1).rngs.rand.rng1).1 - (Sample.sample (st ID0).rngs.rand.rng1).1)
      ((Sample.sample (st ID2).rngs.rand.rng1).1 - (Sample.sample (st ID1).rngs.rand.rng1).1) (by ring)
    simpa using this
  · constructor <;> (try intro i) <;> (try cases i) <;>
      simp [hst.id, hst.rand, hst.a2b, hst.bc1a, hst.bc1b, hst.bc1c, hst.bc2a, hst.bc2b, hst.bc2c]

theorem mapM_mask {α β : Type} (f : α → ZMod p → β) (l : List α) (i : PartyID) (s : Rep3State R) :
    (l.mapM fun el => (maskElem (F := ZMod p) >>= fun m => pure (f el m) : Rep3M R M β)) i s =
    .ret (List.zipWith f l (List.zipWith (· - ·) (sampleN s.rngs.rand.rng1 l.length).1
        (sampleN s.rngs.rand.rng2 l.length).1),
      setRand s ⟨(sampleN (α := ZMod p) s.rngs.rand.rng1 l.length).2,
        (sampleN (α := ZMod p) s.rngs.rand.rng2 l.length).2⟩) := by
  induction l generalizing s with
  | nil => rfl
  | cons x xs ih =>
    simp only [List.mapM_cons, MPC.bind_apply, maskElem, withRand, MPC.modifyGet_apply, Prog.ret_bind,
      MPC.pure_apply] at ih ⊢
    rw [ih]
    rfl

theorem spec_bitInject {x : PartyID → Share (BitVec w)} {b : Bool} (hw : 0 < w) (hx : IsBitShare x b)
    (hst : Corr ty st) :
    Spec (M := M) (fun i => bitInject (p := p) (x i)) st (fun r st' =>
      IsShare r (bitVal b) ∧ Corr ty st') := by
  have e : (fun i => bitInject (p := p) (x i) : PartyID → Rep3M R M _) =
      fun i => bitInjectFromBits ((fun i => (x i).a.getLsbD 0) i, (fun i => (x i).a.getLsbD 0) i.prev) := by
    funext i
    simp [bitInject, hx.isBit i, hx.isBit i.prev, hx.1.1 i]
  rw [e]
  have := spec_bitInjectFromBits (M := M) (p := p) (fun i => (x i).a.getLsbD 0) hst
  simp only [hx.bits hw] at this
  exact this

theorem spec_bitInjectMany {x : PartyID → List (Share (BitVec w))} {bs : List Bool} (hw : 0 < w)
    (hx : IsBitShares x bs) (hst : Corr ty st) :
    Spec (M := M) (fun i => bitInjectMany (p := p) (x i)) st (fun r st' =>
      IsShares r (bs.map bitVal) ∧ Corr ty st') := by
  obtain ⟨l, rfl, hl⟩ := hx
  have hall : ∀ i, (l.map (· i)).all (fun s => Uint.isBit s.a) = true ∧
      (l.map (· i)).all (fun s => Uint.isBit s.b) = true := by
    intro i
    clear hst
    induction hl with
    | nil => simp
    | cons h _ ih =>
      simp at ih
      simp [h.isBit i]
      exact ih
  refine Spec3 ?_
  simp [bitInjectMany, -List.all_map, -bind_pure_comp, -List.mapM_map, hall, stateId, hst.id, sendNextMany, recvPrevMany, sendMany,
    recvMany, MPC.recv_apply, mapM_mask, hst.rand]
  refine ⟨?_, ?_⟩
  · generalize hr : (fun i => (sampleN (α := ZMod p) (st i).rngs.rand.rng1 l.length).1) = r
    have hr' : ∀ i, (sampleN (α := ZMod p) (st i).rngs.rand.rng1 l.length).1 = r i := fun i => by
      rw [← hr]
    have hrl : ∀ i, (r i).length = l.length := fun i => by rw [← hr' i]; simp
    simp only [hr']
    have hlen := hl.length_eq
    refine Cols.of_get l.length (by intro i; cases i <;> simp [hrl]) (by simp; omega) ?_
    intro k hk
    have hb := (List.forall₂_iff_get.1 hl).2 k hk (by omega)
    simp only [List.get_eq_getElem] at hb
    refine ⟨?_, ?_⟩
    · intro i; cases i <;> simp
    · have h3 := inject_sum ((l[k] ID0).a.getLsbD 0) ((l[k] ID1).a.getLsbD 0) ((l[k] ID2).a.getLsbD 0)
        ((r ID0)[k]'(by rw [hrl]; omega) - (r ID2)[k]'(by rw [hrl]; omega))
        ((r ID1)[k]'(by rw [hrl]; omega) - (r ID0)[k]'(by rw [hrl]; omega))
        ((r ID2)[k]'(by rw [hrl]; omega) - (r ID1)[k]'(by rw [hrl]; omega)) (by ring)
      rw [hb.bits hw] at h3
      simpa [hb.1.b0, hb.1.b1, hb.1.b2] using h3
  · constructor <;> (try intro i) <;> (try cases i) <;>
      simp [setRand, hst.id, hst.rand, hst.a2b, hst.bc1a, hst.bc1b, hst.bc1c, hst.bc2a, hst.bc2b, hst.bc2c]

end Inject


section Compare

variable [Sample R (BitVec w)] [UintCodec M w] [Yao.YaoRng R] [Yao.YaoNet M]

omit [Sample R (BitVec w)] [UintCodec M w] [Yao.YaoRng R] [Yao.YaoNet M] in
theorem spec_stateA2BType (hst : Corr ty st) :
    Spec (M := M) (fun _ => stateA2BType) st (fun r s => (r = fun _ => ty) ∧ s = st) := by
  refine Spec.modifyGet (f := fun _ (s : Rep3State R) => (s.a2bType, s)) ?_
  simp [hst.a2b]

theorem spec_a2bSelector [NeZero p] {x : PartyID → Share (ZMod p)} {v : ZMod p}
    (hw : modBits p + 2 ≤ w) (ho : ty = .yao → p % 2 = 1) (hx : IsShare x v) (hst : Corr ty st) :
    Spec (M := M) (fun i => a2bSelector (w := w) (x i)) st (fun r st' =>
      IsBShare r (Uint.ofField w v) ∧ Corr ty st') := by
  refine Spec.bind (spec_stateA2BType hst) ?_
  rintro _ _ ⟨rfl, rfl⟩
  cases ty with
  | direct => exact spec_a2b hw hx hst
  | yao => exact Yao.spec_a2y2b (ho rfl) hx hst

theorem spec_geBit_aux [NeZero p] {d : PartyID → Share (BitVec w)} {a b : ZMod p}
    (hw : modBits p + 2 ≤ w)
    (hd : IsBShare d (BitVec.ofNat w ((Uint.ofField w a).toNat + 2 ^ modBits p - (Uint.ofField w b).toNat))) :
    IsBitShare (fun i => ((d i).shr (modBits p)).andMask 1#w) (decide (b.val ≤ a.val)) := by
  have h := (hd.shr (modBits p)).lowBit
  rw [ofField_toNat (by omega), ofField_toNat (by omega)] at h
  have h2 : p < 2 ^ modBits p := lt_two_pow_modBits
  have ha := ZMod.val_lt a
  have hb := ZMod.val_lt b
  rw [Bin.sub_msb (by omega) (by omega) (by omega)] at h
  exact h

theorem ofField_lt [NeZero p] (hw : modBits p ≤ w) (x : ZMod p) :
    (Uint.ofField w x).toNat < 2 ^ modBits p := by
  rw [ofField_toNat hw]
  have h2 : p < 2 ^ modBits p := lt_two_pow_modBits
  have ha := ZMod.val_lt x
  omega

theorem spec_unsignedGe [NeZero p] {x y : PartyID → Share (ZMod p)} {a b : ZMod p}
    (hw : modBits p + 2 ≤ w) (ho : ty = .yao → p % 2 = 1) (hx : IsShare x a) (hy : IsShare y b) (hst : Corr ty st) :
    Spec (M := M) (fun i => unsignedGe w (x i) (y i)) st (fun r st' =>
      IsBitShare r (decide (b.val ≤ a.val)) ∧ Corr ty st') := by
  refine Spec.bind (spec_a2bSelector hw ho hx hst) ?_
  rintro a' st1 ⟨ha, hst1⟩
  refine Spec.bind (spec_a2bSelector hw ho hy hst1) ?_
  rintro b' st2 ⟨hb, hst2⟩
  refine Spec.bind (Bin.spec_lowDepthBinarySub (modBits p) modBits_pos (by omega) ha hb
    (ofField_lt (by omega) a) (ofField_lt (by omega) b) hst2) ?_
  rintro d st3 ⟨hd, hst3⟩
  exact Spec.pure ⟨spec_geBit_aux hw hd, hst3⟩

theorem spec_unsignedGeConstLhs [NeZero p] {y : PartyID → Share (ZMod p)} (a : ZMod p) {b : ZMod p}
    (hw : modBits p + 2 ≤ w) (ho : ty = .yao → p % 2 = 1) (hy : IsShare y b) (hst : Corr ty st) :
    Spec (M := M) (fun i => unsignedGeConstLhs w a (y i)) st (fun r st' =>
      IsBitShare r (decide (b.val ≤ a.val)) ∧ Corr ty st') := by
  refine Spec.bind (spec_a2bSelector hw ho hy hst) ?_
  rintro b' st2 ⟨hb, hst2⟩
  refine Spec.bind (Bin.spec_lowDepthBinarySubFromConst (Uint.ofField w a) (modBits p) modBits_pos (by omega)
    hb (ofField_lt (by omega) b) (ofField_lt (by omega) a) hst2) ?_
  rintro d st3 ⟨hd, hst3⟩
  exact Spec.pure ⟨spec_geBit_aux hw hd, hst3⟩

theorem isBitShare_promote {w : Nat} : IsBitShare (fun i => Bin.promote i 1#w) true := by
  refine ⟨IsBShare.promote _, fun i => ?_⟩
  have h1 : 1 % 2 ^ w < 2 := lt_of_le_of_lt (Nat.mod_le _ _) (by decide)
  cases i <;> simp [Bin.promote, Share.bzero, h1]

theorem spec_unsignedGeConstRhs [NeZero p] {x : PartyID → Share (ZMod p)} {a : ZMod p} (b : ZMod p)
    (hw : modBits p + 2 ≤ w) (ho : ty = .yao → p % 2 = 1) (hx : IsShare x a) (hst : Corr ty st) :
    Spec (M := M) (fun i => unsignedGeConstRhs w (x i) b) st (fun r st' =>
      IsBitShare r (decide (b.val ≤ a.val)) ∧ Corr ty st') := by
  refine Spec.ite' ?_ ?_
  · rintro rfl
    refine Spec.bind (spec_stateId hst) ?_
    rintro _ _ ⟨rfl, rfl⟩
    refine Spec.pure ⟨?_, hst⟩
    simpa using isBitShare_promote
  · intro hb0
    refine Spec.bind (spec_a2bSelector hw ho hx hst) ?_
    rintro b' st2 ⟨hb, hst2⟩
    refine Spec.bind (Bin.spec_lowDepthBinarySubByConst (Uint.ofField w b) (modBits p) modBits_pos (by omega)
      hb (ofField_lt (by omega) a) ?_ (ofField_lt (by omega) b) hst2) ?_
    · rw [ofField_toNat (by omega)]
      exact ZMod.val_pos.2 hb0
    rintro d st3 ⟨hd, hst3⟩
    exact Spec.pure ⟨spec_geBit_aux hw hd, hst3⟩

theorem spec_eqBit [NeZero p] {x y : PartyID → Share (ZMod p)} {a b : ZMod p}
    (hw : modBits p + 2 ≤ w) (ho : ty = .yao → p % 2 = 1) (hx : IsShare x a) (hy : IsShare y b) (hst : Corr ty st) :
    Spec (M := M) (fun i => eqBit w (x i) (y i)) st (fun r st' =>
      IsBitShare r (decide (a = b)) ∧ Corr ty st') := by
  refine Spec.bind (spec_a2bSelector hw ho (hx.sub hy) hst) ?_
  rintro d st' ⟨hd, hst'⟩
  refine (Bin.spec_isZero (modBits p) modBits_pos (by omega) hd hst').mono ?_
  rintro r st'' ⟨hr, hst''⟩
  refine ⟨?_, hst''⟩
  rw [Nat.mod_eq_of_lt (ofField_lt (by omega) _), ofField_toNat (by omega)] at hr
  simpa [ZMod.val_eq_zero, sub_eq_zero] using hr

omit [Yao.YaoRng R] [Yao.YaoNet M] in
theorem spec_eqBitMany [NeZero p] {x y : PartyID → List (Share (ZMod p))} {as bs : List (ZMod p)}
    (hw : modBits p + 2 ≤ w) (hx : IsShares x as) (hy : IsShares y bs) (hl : as.length = bs.length)
    (hst : Corr ty st) :
    Spec (M := M) (fun i => eqBitMany w (x i) (y i)) st (fun r st' =>
      IsBitShares r (List.zipWith (fun a b => decide (a = b)) as bs) ∧ Corr ty st') := by
  have hl' : ∀ i, (x i).length = (y i).length := fun i => by
    rw [Cols.length hx i, Cols.length hy i, hl]
  simp only [eqBitMany, hl', ne_eq, not_true_eq_false, if_false]
  have hd : IsShares (fun i => List.zipWith sub (x i) (y i)) (List.zipWith (· - ·) as bs) :=
    Cols.zipWith hx hy fun x v y u h h' => h.sub h'
  refine Spec.bind (spec_a2bMany hw hd hst) ?_
  rintro d st' ⟨hd, hst'⟩
  refine (Bin.spec_isZeroMany (modBits p) modBits_pos (by omega) hd hst').mono ?_
  rintro r st'' ⟨hr, hst''⟩
  refine ⟨?_, hst''⟩
  convert hr using 1
  simp only [List.map_zipWith, List.map_map]
  congr 1
  funext a b
  rw [Nat.mod_eq_of_lt (ofField_lt (by omega) _), ofField_toNat (by omega)]
  simp [ZMod.val_eq_zero, sub_eq_zero]

omit [Yao.YaoRng R] [Yao.YaoNet M] in
theorem spec_oneMinus {x : PartyID → Share (ZMod p)} {b : Bool} (hx : IsShare x (bitVal b))
    (hst : Corr ty st) :
    Spec (M := M) (fun i => oneMinus (x i)) st (fun r st' => IsShare r (bitVal (p := p) !b) ∧ Corr ty st') := by
  refine Spec.bind (spec_stateId hst) ?_
  rintro _ _ ⟨rfl, rfl⟩
  refine Spec.pure ⟨?_, hst⟩
  have := hx.neg.addPublic 1
  have e : -bitVal b + 1 = bitVal (p := p) !b := by cases b <;> simp [bitVal]
  rw [e] at this
  exact this

end Compare

section Shift

theorem Cols.getLast {α α' : Type} {P : (PartyID → α) → α' → Prop} {s : PartyID → List α} {us : List α'}
    {u : α'} (h : Cols P s (us ++ [u])) :
    ∃ x, P x u ∧ (∀ i, (s i).getLast? = some (x i)) ∧ Cols P (fun i => (s i).dropLast) us := by
  obtain ⟨l, rfl, hl⟩ := h
  have hr := List.forall₂_reverse_iff.2 hl
  rw [List.reverse_append, List.reverse_singleton, List.singleton_append] at hr
  generalize hk : l.reverse = k at hr
  cases hr with
  | @cons x _ k _ hx hk' =>
    have e : l = k.reverse ++ [x] := by rw [← List.reverse_reverse l, hk]; simp
    subst e
    refine ⟨x, hx, by simp, k.reverse, by simp, ?_⟩
    have := List.forall₂_reverse_iff.2 hk'
    simpa using this

theorem prod_shift (x k : Nat) :
    ((List.range k).map fun i => if x.testBit i then (2 : ZMod p) ^ (2 ^ i) else 1).prod =
      2 ^ (x % 2 ^ k) := by
  induction k with
  | zero => simp [Nat.mod_one]
  | succ k ih =>
    rw [List.range_succ, List.map_append, List.prod_append, ih, Nat.mod_pow_succ]
    have hb : x / 2 ^ k % 2 = if x.testBit k then 1 else 0 := by
      rw [Nat.testBit_eq_decide_div_mod_eq]
      rcases Nat.mod_two_eq_zero_or_one (x / 2 ^ k) with h | h <;> simp [h]
    rw [hb]
    by_cases h : x.testBit k = true <;> simp [h, pow_add]

theorem shiftFactor_share {b : PartyID → Share (ZMod p)} {c : Bool} (i : Nat) (hb : IsShare b (bitVal c)) :
    IsShare (fun id => shiftFactor id i (b id)) (if c then (2 : ZMod p) ^ (2 ^ i) else 1) := by
  have := ((hb.scale (2 ^ 2 ^ i)).addPublic 1).sub hb
  have e : bitVal c * 2 ^ 2 ^ i + 1 - bitVal c = if c then (2 : ZMod p) ^ (2 ^ i) else 1 := by
    cases c <;> simp [bitVal]
  rw [e] at this
  exact this

theorem foldl_mul_prod (l : List (ZMod p)) (x : ZMod p) : l.foldl (· * ·) x = l.prod * x := by
  induction l generalizing x with
  | nil => simp
  | cons y l ih => rw [List.foldl_cons, ih, List.prod_cons]; ring

variable [Sample R (BitVec w)] [UintCodec M w] [Sample R (ZMod p)] [Codec M (List (ZMod p))]
  [Yao.YaoRng R] [Yao.YaoNet M]

theorem spec_b2aSelector [NeZero p] {x : PartyID → Share (BitVec w)} {v : BitVec w} (hw : modBits p + 2 ≤ w)
    (ho : ty = .yao → p % 2 = 1) (hH : ty = .yao → Yao.HashSeparates (Yao.YaoNet.hash M))
    (hx : IsBShare x v) (hv : v.toNat < p) (hst : Corr ty st) :
    Spec (M := M) (fun i => b2aSelector (p := p) (x i)) st (fun r st' =>
      IsShare r (v.toNat : ZMod p) ∧ Corr ty st') := by
  refine Spec.bind (spec_stateA2BType hst) ?_
  rintro _ _ ⟨rfl, rfl⟩
  cases ty with
  | direct => exact spec_b2a hw hx hv hst
  | yao =>
    exact Yao.spec_b2y2a (ho rfl) (by omega) hx hv hst (Yao.separated_b2y2a (hH rfl) (ho rfl) hx hv hst)

theorem spec_shiftLPublicByShared [NeZero p] (hp : 1 < p) (pub : ZMod p) {x : PartyID → Share (BitVec w)}
    {v : BitVec w} (hw : modBits p + 2 ≤ w)
    (ho : ty = .yao → p % 2 = 1) (hH : ty = .yao → Yao.HashSeparates (Yao.YaoNet.hash M)) (hx : IsBShare x v) (hst : Corr ty st) :
    Spec (M := M) (fun i => shiftLPublicByShared w pub (x i)) st (fun r st' =>
      IsShare r (pub * 2 ^ (v.toNat % 256)) ∧ Corr ty st') := by
  have hr : Cols (fun (x : PartyID → Nat) (v : Nat) => x = fun _ => v) (fun _ => List.range 8) (List.range 8) :=
    Cols.of_get 8 (by simp) (by simp) (by intro k hk; simp)
  refine Spec.bind (Spec.mapCols (f := fun i k => b2aSelector (p := p)
    (⟨((x i).a >>> k) &&& 1#w, ((x i).b >>> k) &&& 1#w⟩ : Share (BitVec w))) (Q := IsShare)
    (g := fun k => bitVal (v.toNat.testBit k)) hr ?_ hst) ?_
  · rintro _ k st rfl hst
    have hb := hx.shr k |>.andMask 1#w
    rw [and_one_eq] at hb
    have hval : ((if (v >>> k).getLsbD 0 = true then 1#w else 0#w).toNat) =
        if v.toNat.testBit k then 1 else 0 := by
      have h1 : 1 % 2 ^ w = 1 := Nat.mod_eq_of_lt (Nat.one_lt_two_pow (by omega))
      simp only [BitVec.getLsbD_ushiftRight, Nat.add_zero, BitVec.testBit_toNat]
      by_cases h : v.getLsbD k = true <;> simp [h, h1]
    have := spec_b2aSelector (M := M) (p := p) hw ho hH hb (by rw [hval]; split <;> omega) hst
    rw [hval] at this
    refine this.mono ?_
    rintro r st' ⟨h, hst'⟩
    refine ⟨?_, hst'⟩
    convert h using 1
    cases v.toNat.testBit k <;> simp [bitVal]
  rintro bits st' ⟨hbits, hst'⟩
  refine Spec.bind (spec_stateId hst') ?_
  rintro _ _ ⟨rfl, rfl⟩
  have hlen : ∀ i, (bits i).length = 8 := fun i => by simpa using Cols.length hbits i
  have hv : Cols IsShare (fun i => List.zipWith (shiftFactor i) (List.range (bits i).length) (bits i))
      (((List.range 7).map fun i => if v.toNat.testBit i then (2 : ZMod p) ^ (2 ^ i) else 1) ++
        [if v.toNat.testBit 7 then (2 : ZMod p) ^ (2 ^ 7) else 1]) := by
    simp only [hlen]
    refine Cols.of_get 8 (by simp [hlen]) (by simp) ?_
    intro k hk
    obtain ⟨y, hy, hP⟩ := Cols.get hbits (k := k) (v := bitVal (v.toNat.testBit k)) (by
      rw [List.getElem?_map, List.getElem?_range (by omega)]; rfl)
    have hk8 : ∀ i, (bits i)[k]'(by rw [hlen]; exact hk) = y i := fun i => by
      have := hy i
      rw [List.getElem?_eq_getElem (by rw [hlen]; exact hk)] at this
      exact Option.some.inj this
    simp only [List.getElem_zipWith, List.getElem_range, hk8]
    have hg : (((List.range 7).map fun i => if v.toNat.testBit i then (2 : ZMod p) ^ (2 ^ i) else 1) ++
        [if v.toNat.testBit 7 then (2 : ZMod p) ^ (2 ^ 7) else 1])[k]'(by simpa using hk) =
        if v.toNat.testBit k then (2 : ZMod p) ^ (2 ^ k) else 1 := by
      rcases Nat.lt_or_ge k 7 with h | h
      · rw [List.getElem_append_left (by simpa using h)]; simp
      · have : k = 7 := by omega
        subst this; simp
    rw [hg]
    exact shiftFactor_share k hP
  obtain ⟨y, hy, hlast, hrest⟩ := Cols.getLast hv
  simp only [hlast]
  refine Spec.bind (Spec.foldCols (Rel := IsShare) (step := fun a b => a * b) hrest
    (f := fun _ (v v_i : Share (ZMod p)) => mul v v_i)
    (fun x a s v st hx hs hst => spec_mul hs hx hst) hy hst') ?_
  rintro r st'' ⟨hr, hst''⟩
  refine Spec.pure ⟨?_, hst''⟩
  have := hr.scale pub
  rw [foldl_mul_prod] at this
  have e := prod_shift (p := p) v.toNat 8
  rw [List.range_succ, List.map_append, List.prod_append] at e
  simp only [List.map_cons, List.map_nil, List.prod_cons, List.prod_nil, mul_one] at e
  rw [e, mul_comm] at this
  exact this

end Shift

end Verif.Rep3
