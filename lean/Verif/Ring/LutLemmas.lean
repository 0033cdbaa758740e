import Verif.Ring.Lut
import Verif.Ring.OhvLemmas
import Verif.Rep3.InjectLemmas
import Verif.Rep3.PointLemmas

/-!
# Oblivious lookup tables: lemmas
-/

namespace Verif.Rep3.Lut

open PartyID Verif.Rep3.Ring

variable {R M : Type} {w t p : Nat} {ta ty : A2BType} {st : PartyID → Rep3State R}

/-! ### Sums over one-hot vectors -/

/-- XOR of `g j` over all positions `j` whose bit is set. -/
def pick (g : Nat → BitVec w) : List (BitVec 1) → Nat → BitVec w → BitVec w
  | [], _, acc => acc
  | b :: l, j, acc => pick g l (j + 1) (acc ^^^ if b = 1#1 then g j else 0#w)

theorem ofBool_eq_one (b : Bool) : BitVec.ofBool b = 1#1 ↔ b = true := by
  revert b; decide

theorem pick_range' (g : Nat → BitVec w) (v m j : Nat) (acc : BitVec w) :
    pick g ((List.range' j m).map fun x => BitVec.ofBool (decide (x = v))) j acc =
      acc ^^^ if j ≤ v ∧ v < j + m then g v else 0#w := by
  induction m generalizing j acc with
  | zero => rw [if_neg (by omega)]; simp [pick]
  | succ m ih =>
    rw [List.range'_succ, List.map_cons, pick, ih]
    simp only [ofBool_eq_one, decide_eq_true_eq]
    by_cases h : j = v
    · subst h
      rw [if_pos rfl, if_neg (by omega), if_pos (by omega)]
      simp
    · rw [if_neg h]
      by_cases h2 : j ≤ v ∧ v < j + (m + 1)
      · rw [if_pos (by omega), if_pos h2]; simp
      · rw [if_neg (by omega), if_neg h2]; simp

theorem pick_hot (g : Nat → BitVec w) {n v : Nat} (hv : v < 2 ^ n) (acc : BitVec w) :
    pick g (hot n v) 0 acc = acc ^^^ g v := by
  rw [hot, List.range_eq_range', pick_range', if_pos (by omega)]

theorem flatMap_range {α : Type} (f : Nat → α) (A B : Nat) :
    (List.range A).flatMap (fun i => (List.range B).map fun j => f (i * B + j)) =
      (List.range (A * B)).map f := by
  induction A with
  | zero => simp
  | succ A ih =>
    rw [List.range_succ, List.flatMap_append, ih, Nat.succ_mul, List.range_add, List.map_append]
    simp [Function.comp_def]

theorem allPairs_hot {a b r s : Nat} (hs : s < 2 ^ b) :
    (allPairs (hot a r) (hot b s)).map (fun x => x.1 &&& x.2) = hot (a + b) (r * 2 ^ b + s) := by
  unfold hot
  rw [pow_add, ← flatMap_range, allPairs, List.map_flatMap, List.flatMap_map]
  congr 1
  funext i
  rw [List.map_map, List.map_map]
  refine List.map_congr_left fun j hj => ?_
  have hj' := List.mem_range.1 hj
  simp only [Function.comp_apply]
  have h : (i * 2 ^ b + j = r * 2 ^ b + s) ↔ i = r ∧ j = s := by
    constructor
    · intro h
      have h1 : (i * 2 ^ b + j) / 2 ^ b = (r * 2 ^ b + s) / 2 ^ b := by rw [h]
      have h2 : (i * 2 ^ b + j) % 2 ^ b = (r * 2 ^ b + s) % 2 ^ b := by rw [h]
      rw [Nat.mul_add_mod', Nat.mul_add_mod', Nat.mod_eq_of_lt hj', Nat.mod_eq_of_lt hs] at h2
      refine ⟨?_, h2⟩
      subst h2
      exact Nat.eq_of_mul_eq_mul_right (Nat.two_pow_pos b) (Nat.add_right_cancel h)
    · rintro ⟨rfl, rfl⟩; rfl
  rw [decide_eq_decide.2 h, Bool.decide_and]
  cases decide (i = r) <;> cases decide (j = s) <;> decide

/-! ### The loops -/

theorem lookup_eq (lut : List (ZMod p)) (i : Nat) (h : lut.length ≤ i) : Uint.ofField w (lut.getD i 0) = 0#w := by
  simp [List.getElem?_eq_none h, Uint.ofField]

theorem readPublicLoop_spec (lut : List (ZMod p)) (c : Nat) {e : PartyID → List (Share (BitVec 1))}
    {vs : List (BitVec 1)} (he : IsBShares e vs) (j : Nat) {acc : PartyID → Share (BitVec w)} {v : BitVec w}
    (hacc : IsBShare acc v) :
    ∃ r : PartyID → Share (BitVec w), (∀ i, readPublicLoop lut c (e i) j (acc i) = some (r i)) ∧
      IsBShare r (pick (fun j => Uint.ofField w (lut.getD (j ^^^ c) 0)) vs j v) := by
  obtain ⟨l, rfl, hl⟩ := he
  induction hl generalizing j acc v with
  | nil => exact ⟨acc, fun i => rfl, hacc⟩
  | @cons x b l vs hx hl ih =>
    simp only [List.map_cons, readPublicLoop, pick]
    by_cases hn : lut.length ≤ j ^^^ c
    · rw [lookup_eq lut _ hn]
      simpa only [if_pos hn, ite_self, BitVec.xor_zero] using ih (j + 1) hacc
    · simp only [if_neg hn, List.getElem?_eq_getElem (by omega : j ^^^ c < lut.length)]
      refine ih (j + 1) ?_
      have hlook : lut.getD (j ^^^ c) 0 = lut[j ^^^ c]'(by omega) := by
        simp [List.getElem?_eq_getElem (by omega : j ^^^ c < lut.length)]
      rw [hlook]
      generalize Uint.ofField w (lut[j ^^^ c]'(by omega)) = u
      refine ⟨fun i => by simp only [hx.1 i, hacc.1 i], ?_⟩
      rw [← hx.2, ← hacc.2]
      beta_reduce
      dsimp only
      generalize (x ID0).a = x0; generalize (x ID1).a = x1; generalize (x ID2).a = x2
      have hb : ∀ b : BitVec 1, b = 0#1 ∨ b = 1#1 := by decide
      have e1 : (0#1 = 1#1) = False := by decide
      rcases hb x0 with rfl | rfl <;> rcases hb x1 with rfl | rfl <;> rcases hb x2 with rfl | rfl <;>
        simp [e1] <;>
        (ext q hq; simp only [BitVec.getElem_xor]; cases u[q] <;> simp)

theorem lowDepthStep_eq (v : BitVec w) (f0 f1 : Share (BitVec 1)) (m : BitVec w) :
    lowDepthStep v f0 f1 m = preBit ⟨if f0.a = 1#1 then v else 0#w, if f0.b = 1#1 then v else 0#w⟩ f1 m := by
  simp only [lowDepthStep, preBit, BitVec.zero_xor]

theorem bool_conj' (a0 a1 a2 b0 b1 b2 m0 m1 m2 : Bool) :
    (((m0 ^^ (b0 && (a0 ^^ a2))) ^^ (b2 && a0)) ^^ ((m1 ^^ (b1 && (a1 ^^ a0))) ^^ (b0 && a1)) ^^
      ((m2 ^^ (b2 && (a2 ^^ a1))) ^^ (b1 && a2))) =
    ((m0 ^^ m1 ^^ m2) ^^ ((a0 ^^ a1 ^^ a2) && (b0 ^^ b1 ^^ b2))) := by
  revert a0 a1 a2 b0 b1 b2 m0 m1 m2
  decide

theorem preBit_sum {a : PartyID → Share (BitVec w)} {b : PartyID → Share (BitVec 1)} {u : BitVec w} {c : BitVec 1}
    (ha : IsBShare a u) (hb : IsBShare b c) (m : PartyID → BitVec w) :
    preBit (a ID0) (b ID0) (m ID0) ^^^ preBit (a ID1) (b ID1) (m ID1) ^^^ preBit (a ID2) (b ID2) (m ID2) =
      (m ID0 ^^^ m ID1 ^^^ m ID2) ^^^ if c = 1#1 then u else 0#w := by
  refine BitVec.eq_of_getLsbD_eq fun i _ => ?_
  have e : (if c = 1#1 then u else 0#w).getLsbD i = (u.getLsbD i && c.getLsbD 0) := by
    simp only [eq_one_iff]; cases c.getLsbD 0 <;> simp
  simp only [BitVec.getLsbD_xor, e, preBit_getLsbD, ha.b0, ha.b1, ha.b2, hb.b0, hb.b1, hb.b2]
  rw [bool_conj', ← ha.2, ← hb.2]
  simp only [BitVec.getLsbD_xor]

theorem isBShare_select {x : PartyID → Share (BitVec 1)} {b : BitVec 1} (hx : IsBShare x b) (u : BitVec w) :
    IsBShare (fun i => (⟨if (x i).a = 1#1 then u else 0#w, if (x i).b = 1#1 then u else 0#w⟩ : Share (BitVec w)))
      (if b = 1#1 then u else 0#w) := by
  refine ⟨fun i => by simp only [hx.1 i], ?_⟩
  rw [← hx.2]
  dsimp only
  generalize (x ID0).a = x0; generalize (x ID1).a = x1; generalize (x ID2).a = x2
  have hb : ∀ b : BitVec 1, b = 0#1 ∨ b = 1#1 := by decide
  have e1 : (0#1 = 1#1) = False := by decide
  rcases hb x0 with rfl | rfl <;> rcases hb x1 with rfl | rfl <;> rcases hb x2 with rfl | rfl <;>
    simp [e1]

theorem and_eq_one (x y : BitVec 1) : x &&& y = 1#1 ↔ y = 1#1 ∧ x = 1#1 := by
  revert x y; decide

/-- Pairs of sharings of bits. -/
abbrev IsPair (x : PartyID → Share (BitVec 1) × Share (BitVec 1)) (v : BitVec 1 × BitVec 1) : Prop :=
  IsBShare (fun i => (x i).1) v.1 ∧ IsBShare (fun i => (x i).2) v.2

theorem cols_allPairs {e e' : PartyID → List (Share (BitVec 1))} {vs us : List (BitVec 1)} (he : IsBShares e vs)
    (he' : IsBShares e' us) : Cols IsPair (fun i => allPairs (e i) (e' i)) (allPairs vs us) := by
  obtain ⟨l, rfl, hl⟩ := he
  induction hl with
  | nil => exact Cols.nil
  | @cons x b l vs hx hl ih =>
    simp only [List.map_cons, allPairs, List.flatMap_cons] at ih ⊢
    exact Cols.append (Cols.map he' fun y v hy => ⟨hx, hy⟩) ih

theorem lowDepthLoop_spec (lut : List (ZMod p)) {n : Nat} (hlen : lut.length = n) (c : Nat)
    {e : PartyID → List (Share (BitVec 1) × Share (BitVec 1))}
    {vs : List (BitVec 1 × BitVec 1)} (he : Cols IsPair e vs) (j : Nat) {acc : PartyID → BitVec w} {v : BitVec w}
    (hacc : acc ID0 ^^^ acc ID1 ^^^ acc ID2 = v) :
    ∃ r : PartyID → BitVec w, (∀ i, lowDepthLoop lut n c (e i) j (acc i) = some (r i)) ∧
      r ID0 ^^^ r ID1 ^^^ r ID2 =
        pick (fun j => Uint.ofField w (lut.getD (j ^^^ c) 0)) (vs.map fun x => x.1 &&& x.2) j v := by
  subst hlen
  obtain ⟨l, rfl, hl⟩ := he
  induction hl generalizing j acc v with
  | nil => exact ⟨acc, fun i => rfl, hacc⟩
  | @cons x b l vs hx hl ih =>
    simp only [List.map_cons, lowDepthLoop, pick]
    by_cases hn : lut.length ≤ j ^^^ c
    · rw [lookup_eq lut _ hn]
      simpa only [if_pos hn, ite_self, BitVec.xor_zero] using ih (j + 1) hacc
    · simp only [if_neg hn, List.getElem?_eq_getElem (by omega : j ^^^ c < lut.length)]
      refine ih (j + 1) ?_
      have hlook : lut.getD (j ^^^ c) 0 = lut[j ^^^ c]'(by omega) := by
        simp [List.getElem?_eq_getElem (by omega : j ^^^ c < lut.length)]
      rw [hlook]
      simp only [lowDepthStep_eq]
      rw [preBit_sum (isBShare_select hx.1 _) hx.2, hacc]
      simp only [and_eq_one, ite_and]

/-! ### Opening the masked index -/

theorem shl_add_eq_xor {x y : BitVec t} {k : Nat} (hy : y.toNat < 2 ^ k) : x <<< k + y = x <<< k ^^^ y := by
  have h0 : x <<< k &&& y = 0#t := by
    refine BitVec.eq_of_getLsbD_eq fun i hi => ?_
    rw [BitVec.getLsbD_and, BitVec.getLsbD_shiftLeft, BitVec.getLsbD_zero]
    by_cases h : i < k
    · simp [h]
    · have : y.getLsbD i = false := by
        rw [BitVec.getLsbD, Nat.testBit_lt_two_pow (lt_of_lt_of_le hy (Nat.pow_le_pow_right (by norm_num) (by omega)))]
      simp [this]
  rw [BitVec.add_eq_or_of_and_eq_zero _ _ h0]
  refine BitVec.eq_of_getLsbD_eq fun i hi => ?_
  have := congrArg (fun z => z.getLsbD i) h0
  rw [BitVec.getLsbD_or, BitVec.getLsbD_xor]
  simp only [BitVec.getLsbD_and, BitVec.getLsbD_zero] at this
  revert this
  cases (x <<< k).getLsbD i <;> cases y.getLsbD i <;> simp

theorem shl_add_toNat {x y : BitVec t} {k : Nat} (hx : x.toNat < 2 ^ k) (hy : y.toNat < 2 ^ k) (hk : k + k ≤ t) :
    (x <<< k + y).toNat = x.toNat * 2 ^ k + y.toNat := by
  have h1 : x.toNat * 2 ^ k + y.toNat < 2 ^ (k + k) := by
    rw [pow_add]
    calc x.toNat * 2 ^ k + y.toNat < x.toNat * 2 ^ k + 2 ^ k := by omega
      _ = (x.toNat + 1) * 2 ^ k := by ring
      _ ≤ 2 ^ k * 2 ^ k := Nat.mul_le_mul_right _ hx
  have h2 : 2 ^ (k + k) ≤ 2 ^ t := Nat.pow_le_pow_right (by norm_num) hk
  rw [BitVec.toNat_add, BitVec.toNat_shiftLeft, Nat.shiftLeft_eq, Nat.mod_add_mod, Nat.mod_eq_of_lt (by omega)]

section

variable [∀ w, Sample R (BitVec w)] [∀ w, UintCodec M w]

omit [∀ w, Sample R (BitVec w)] [∀ w, UintCodec M w] in
theorem spec_toUsize (ht : t ≤ 64) (k : Nat) (c : BitVec t) :
    Spec (M := M) (fun _ => toUsize k c) st (fun r s => (r = fun _ => c.toNat % 2 ^ k) ∧ s = st) := by
  have h : c.toNat < 2 ^ 64 := lt_of_lt_of_le c.isLt (Nat.pow_le_pow_right (by norm_num) ht)
  simp only [toUsize, if_pos h, Nat.one_shiftLeft, Nat.and_two_pow_sub_one_eq_mod]
  exact Spec.pure ⟨rfl, rfl⟩

theorem spec_lowDepthOpen {k : Nat} (hk : k % 2 = 0) (hkt : k ≤ t) (ht : t ≤ 64)
    {index r r' : PartyID → Share (BitVec t)} {v u u' : BitVec t} (hx : IsBShare index v) (hr : IsBShare r u)
    (hr' : IsBShare r' u') (hu : u.toNat < 2 ^ (k / 2)) (hu' : u'.toNat < 2 ^ (k / 2))
    (hb : ∀ i, (r' i).a.toNat < 2 ^ (k / 2) ∧ (r' i).b.toNat < 2 ^ (k / 2)) :
    Spec (M := M) (fun i => lowDepthOpen k (index i) (r i) (r' i)) st (fun c s =>
      (c = fun _ => ((u.toNat * 2 ^ (k / 2) + u'.toNat) ^^^ v.toNat) % 2 ^ k) ∧ s = st) := by
  have hsum : IsBShare (fun i => (⟨((r i).shl (k / 2)).a + (r' i).a, ((r i).shl (k / 2)).b + (r' i).b⟩ :
      Share (BitVec t))) (u <<< (k / 2) + u') := by
    have e : (fun i => (⟨((r i).shl (k / 2)).a + (r' i).a, ((r i).shl (k / 2)).b + (r' i).b⟩ :
        Share (BitVec t))) = fun i => ((r i).shl (k / 2)).bxor (r' i) := by
      funext i
      simp only [Share.shl, Share.bxor, shl_add_eq_xor (hb i).1, shl_add_eq_xor (hb i).2]
    rw [e, shl_add_eq_xor hu']
    exact (hr.shl _).bxor hr'
  simp only [lowDepthOpen, openBits_eq]
  refine Spec.bind (Bin.spec_open (hsum.bxor hx)) ?_
  rintro c s ⟨rfl, rfl⟩
  refine (spec_toUsize ht k _).mono ?_
  rintro c s ⟨rfl, rfl⟩
  refine ⟨?_, rfl⟩
  rw [BitVec.toNat_xor, shl_add_toNat hu hu' (by omega)]

end

theorem xor_mask_mod {a v k : Nat} (ha : a < 2 ^ k) : a ^^^ ((a ^^^ v) % 2 ^ k) = v % 2 ^ k := by
  rw [Nat.xor_mod_two_pow, Nat.mod_eq_of_lt ha, ← Nat.xor_assoc, Nat.xor_self, Nat.zero_xor]

theorem spec_orPanic {α : Type} {x : PartyID → Option α} {r : PartyID → α} (h : ∀ i, x i = some (r i)) :
    Spec (M := M) (fun i => orPanic (x i)) st (fun y s => y = r ∧ s = st) := by
  simp only [h, orPanic]
  exact Spec.pure ⟨rfl, rfl⟩

variable [∀ w, Sample R (BitVec w)] [∀ w, UintCodec M w]

theorem spec_assert {b : Bool} (h : b = true) :
    Spec (M := M) (fun _ => assertThat b) st (fun _ s => s = st) := by
  subst h
  exact Spec.pure rfl

theorem spec_readPublicLut {lut : List (ZMod p)} (hn : 2 ≤ lut.length) (hk : Nat.clog 2 lut.length ≤ t) (ht : t ≤ 64)
    {index : PartyID → Share (BitVec t)} {v : BitVec t} (hx : IsBShare index v) (hst : Corr ty st) :
    Spec (M := M) (fun i => readPublicLut w lut (index i)) st (fun r st' =>
      IsBShare r (Uint.ofField w (lut.getD (v.toNat % 2 ^ Nat.clog 2 lut.length) 0)) ∧ Corr ty st') := by
  have hpos : 0 < Nat.clog 2 lut.length := Nat.clog_pos (by norm_num) hn
  refine Spec.bind (spec_assert (by simpa using hk)) ?_
  rintro _ _ rfl
  refine Spec.bind (spec_randOhv _ hpos hk hst) ?_
  rintro re st' ⟨⟨u, hu, -, hr, he⟩, hst'⟩
  simp only [openBits_eq]
  refine Spec.bind (Bin.spec_open (hr.bxor hx)) ?_
  rintro c s ⟨rfl, rfl⟩
  refine Spec.bind (spec_toUsize ht _ _) ?_
  rintro c s ⟨rfl, rfl⟩
  obtain ⟨r, h1, h2⟩ := readPublicLoop_spec (w := w) lut ((u ^^^ v).toNat % 2 ^ Nat.clog 2 lut.length) he 0 IsBShare.zero
  refine (spec_orPanic h1).mono ?_
  rintro y s ⟨rfl, rfl⟩
  refine ⟨?_, hst'⟩
  rwa [pick_hot _ hu, BitVec.zero_xor, BitVec.toNat_xor, xor_mask_mod hu] at h2

theorem spec_lowDepthRead {lut : List (ZMod p)} {n k : Nat} (hlen : lut.length = n) (hk : k % 2 = 0)
    {e e' : PartyID → List (Share (BitVec 1))} {u u' v : Nat} (he : IsBShares e (hot (k / 2) u))
    (he' : IsBShares e' (hot (k / 2) u')) (hu : u < 2 ^ (k / 2)) (hu' : u' < 2 ^ (k / 2)) (hst : Corr ty st) :
    Spec (M := M) (fun i => lowDepthRead w lut n (((u * 2 ^ (k / 2) + u') ^^^ v) % 2 ^ k) (e i) (e' i)) st
      (fun r st' => r ID0 ^^^ r ID1 ^^^ r ID2 = Uint.ofField w (lut.getD (v % 2 ^ k) 0) ∧ Corr ty st') := by
  refine Spec.bind (Bin.spec_maskBits _ hst) ?_
  rintro m st' ⟨⟨q, rfl⟩, hst'⟩
  have hz : (fun i : PartyID => q i ^^^ q i.prev) ID0 ^^^ (fun i : PartyID => q i ^^^ q i.prev) ID1 ^^^
      (fun i : PartyID => q i ^^^ q i.prev) ID2 = 0#w := by
    simp only [ID0_prev, ID1_prev, ID2_prev]
    ext i hi
    simp only [BitVec.getElem_xor, BitVec.getElem_zero]
    cases (q ID0)[i] <;> cases (q ID1)[i] <;> cases (q ID2)[i] <;> rfl
  obtain ⟨r, h1, h2⟩ := lowDepthLoop_spec (w := w) lut hlen (((u * 2 ^ (k / 2) + u') ^^^ v) % 2 ^ k)
    (cols_allPairs he he') 0 (acc := fun i : PartyID => q i ^^^ q i.prev) hz
  refine (spec_orPanic h1).mono ?_
  rintro y s ⟨rfl, rfl⟩
  refine ⟨?_, hst'⟩
  have hlt : u * 2 ^ (k / 2) + u' < 2 ^ (k / 2 + k / 2) := by
    rw [pow_add]
    calc u * 2 ^ (k / 2) + u' < u * 2 ^ (k / 2) + 2 ^ (k / 2) := by omega
      _ = (u + 1) * 2 ^ (k / 2) := by ring
      _ ≤ 2 ^ (k / 2) * 2 ^ (k / 2) := Nat.mul_le_mul_right _ hu
  have hkk : k / 2 + k / 2 = k := by omega
  rw [h2, allPairs_hot hu', pick_hot _ hlt, BitVec.zero_xor, xor_mask_mod (by rw [hkk] at hlt; exact hlt)]

theorem makeEven_mod (k : Nat) : makeEven k % 2 = 0 := by unfold makeEven; split <;> omega

theorem le_makeEven (k : Nat) : k ≤ makeEven k := by unfold makeEven; split <;> omega

theorem spec_lowDepthPost {lut : List (ZMod p)} (hkt : makeEven (Nat.clog 2 lut.length) ≤ t) (ht : t ≤ 64)
    {index : PartyID → Share (BitVec t)} {v : BitVec t} (hx : IsBShare index v)
    {x x' : PartyID → Share (BitVec t) × List (Share (BitVec 1))}
    (h : ∃ u : BitVec t, u.toNat < 2 ^ (makeEven (Nat.clog 2 lut.length) / 2) ∧
      (∀ i, (x i).1.a.toNat < 2 ^ (makeEven (Nat.clog 2 lut.length) / 2) ∧
        (x i).1.b.toNat < 2 ^ (makeEven (Nat.clog 2 lut.length) / 2)) ∧
      IsBShare (fun i => (x i).1) u ∧ IsBShares (fun i => (x i).2) (hot (makeEven (Nat.clog 2 lut.length) / 2) u.toNat))
    (h' : ∃ u : BitVec t, u.toNat < 2 ^ (makeEven (Nat.clog 2 lut.length) / 2) ∧
      (∀ i, (x' i).1.a.toNat < 2 ^ (makeEven (Nat.clog 2 lut.length) / 2) ∧
        (x' i).1.b.toNat < 2 ^ (makeEven (Nat.clog 2 lut.length) / 2)) ∧
      IsBShare (fun i => (x' i).1) u ∧ IsBShares (fun i => (x' i).2) (hot (makeEven (Nat.clog 2 lut.length) / 2) u.toNat))
    (hst : Corr ty st) :
    Spec (M := M) (fun i => lowDepthPost w lut (index i) (x i) (x' i)) st (fun r st' =>
      r ID0 ^^^ r ID1 ^^^ r ID2 =
        Uint.ofField w (lut.getD (v.toNat % 2 ^ makeEven (Nat.clog 2 lut.length)) 0) ∧ Corr ty st') := by
  obtain ⟨u, hu, -, hr, he⟩ := h
  obtain ⟨u', hu', hb, hr', he'⟩ := h'
  refine Spec.bind (spec_lowDepthOpen (makeEven_mod _) hkt ht hx hr hr' hu hu' hb) ?_
  rintro c s ⟨rfl, rfl⟩
  exact spec_lowDepthRead rfl (makeEven_mod _) he he' hu hu' hst

/-! ### The type of the index -/

theorem le_lutWidth {k : Nat} (hk : k ≤ 32) : k ≤ lutWidth k := by
  unfold lutWidth; split_ifs <;> omega

theorem lutWidth_le (k : Nat) : lutWidth k ≤ 32 := by
  unfold lutWidth; split_ifs <;> omega

theorem makeEven_le_lutWidth {k : Nat} (h2 : 2 ≤ k) (hk : k ≤ 32) : makeEven k ≤ lutWidth k := by
  unfold lutWidth makeEven; split_ifs <;> omega

theorem le_two_pow_clog {n : Nat} : n ≤ 2 ^ Nat.clog 2 n := Nat.le_pow_clog (by norm_num) n

theorem clog_le_of_le {n k : Nat} (h : n ≤ 2 ^ k) : Nat.clog 2 n ≤ k := (Nat.clog_le_iff_le_pow (by norm_num)).2 h

theorem two_le_clog {n : Nat} (h : 3 ≤ n) : 2 ≤ Nat.clog 2 n := by
  by_contra hc
  have h1 := le_two_pow_clog (n := n)
  have h2 : 2 ^ Nat.clog 2 n ≤ 2 ^ 1 := Nat.pow_le_pow_right (by norm_num) (by omega)
  omega

variable [Sample R (ZMod p)] [Codec M (List (ZMod p))] [Yao.YaoRng R] [Yao.YaoNet M]

theorem spec_castIndex [NeZero p] {n : Nat} (hk : Nat.clog 2 n ≤ 32) (hw : modBits p + 2 ≤ w) (ho : ta = .yao → p % 2 = 1)
    {index : PartyID → Share (ZMod p)} {x : ZMod p} (hx : IsShare index x) (hst : Corr ta st) :
    Spec (M := M) (fun i => castIndex w n (index i)) st (fun r st' =>
      (∃ v, IsBShare r v ∧ v.toNat = x.val % 2 ^ lutWidth (Nat.clog 2 n)) ∧ Corr ta st') := by
  refine Spec.bind (spec_a2bSelector hw ho hx hst) ?_
  rintro b st' ⟨hb, hst'⟩
  simp only [if_neg (by omega : ¬ 32 < Nat.clog 2 n)]
  refine Spec.pure ⟨⟨_, hb.castTo _, ?_⟩, hst'⟩
  rw [BitVec.toNat_setWidth, ofField_toNat (by omega)]

theorem mod_mod_pow {a m k : Nat} (h : k ≤ m) : a % 2 ^ m % 2 ^ k = a % 2 ^ k :=
  Nat.mod_mod_of_dvd _ (pow_dvd_pow 2 h)

theorem spec_b2aRead [NeZero p] (hw : modBits p + 2 ≤ w) (ho : ta = .yao → p % 2 = 1)
    (hH : ta = .yao → Yao.HashSeparates (Yao.YaoNet.hash M)) {b : PartyID → BitVec w} {v : ZMod p}
    (hb : b ID0 ^^^ b ID1 ^^^ b ID2 = Uint.ofField w v) (hst : Corr ta st) :
    Spec (M := M) (fun i => b2aSelector (p := p) ⟨b i, b i.prev⟩) st (fun r st' =>
      IsShare r v ∧ Corr ta st') := by
  refine (spec_b2aSelector hw ho hH (isBShare_mk hb) ?_ hst).mono ?_
  · rw [ofField_toNat (by omega)]; exact ZMod.val_lt v
  · rintro r st' ⟨h, hst'⟩
    rw [ofField_toNat (by omega), ZMod.natCast_zmod_val] at h
    exact ⟨h, hst'⟩

theorem ensures_getFromPublicLut [NeZero p] {lut : List (ZMod p)} (hn : 3 ≤ lut.length) (hn' : lut.length ≤ 2 ^ 32)
    (hw : modBits p + 2 ≤ w) (ho : ta = .yao → p % 2 = 1)
    (hH : ta = .yao → Yao.HashSeparates (Yao.YaoNet.hash M)) {index : PartyID → Share (ZMod p)} {x : ZMod p} (hx : IsShare index x)
    {st₀ st₁ : PartyID → Rep3State R} (h₀ : Corr ta st₀) (h₁ : Corr ty st₁) :
    Ensures₂ (getFromPublicLut (M := M) w index lut st₀ st₁) fun r s₀ s₁ =>
      IsShare r (lut.getD (x.val % 2 ^ makeEven (Nat.clog 2 lut.length)) 0) ∧ Corr ta s₀ ∧ Corr ty s₁ := by
  have hk : Nat.clog 2 lut.length ≤ 32 := clog_le_of_le hn'
  have h2 := two_le_clog hn
  have hkt := makeEven_le_lutWidth h2 hk
  have hle := le_makeEven (Nat.clog 2 lut.length)
  unfold getFromPublicLut
  refine Spec.forkJoin (ι := PartyID) ?_
  refine Spec.bind (Q₁ := fun a s₀ => (∃ v, IsBShare a v ∧ v.toNat = x.val % 2 ^ lutWidth (Nat.clog 2 lut.length)) ∧
    Corr ta s₀) (spec_castIndex hk hw ho hx h₀) ?_
  rintro a s₀ ⟨⟨v, hv, hvx⟩, hs₀⟩
  refine Spec.bind (spec_assert (by simpa using hkt)) ?_
  rintro _ _ rfl
  refine Spec.pure ?_
  refine (spec_randOhv (makeEven (Nat.clog 2 lut.length) / 2) (by omega) (by omega) hs₀).mono ?_
  rintro y s₀ ⟨hy, hs₀⟩
  refine (spec_randOhv (makeEven (Nat.clog 2 lut.length) / 2) (by omega) (by omega) h₁).mono ?_
  rintro y' s₁ ⟨hy', hs₁⟩
  refine Spec.bind (spec_lowDepthPost hkt (by have := lutWidth_le (Nat.clog 2 lut.length); omega) hv hy hy' hs₀) ?_
  rintro b s₀ ⟨hb, hs₀⟩
  refine Spec.bind spec_reshare ?_
  rintro b' _ ⟨rfl, rfl⟩
  refine (spec_b2aRead hw ho hH hb hs₀).mono ?_
  rintro r s ⟨hr, hs⟩
  rw [hvx, mod_mod_pow hkt] at hr
  exact ⟨hr, hs, hs₁⟩

omit [Sample R (ZMod p)] [Codec M (List (ZMod p))] in
omit [Yao.YaoRng R] [Yao.YaoNet M] in
theorem ensures_getFromPublicLutNoB2A {lut : List (ZMod p)} (hn : 2 ≤ lut.length)
    (hkt : makeEven (Nat.clog 2 lut.length) ≤ t) (ht : t ≤ 64)
    {index : PartyID → Share (BitVec w)} {v : BitVec w} (hx : IsBShare index v)
    {st₀ st₁ : PartyID → Rep3State R} (h₀ : Corr ty st₀) (h₁ : Corr ty st₁) :
    Ensures₂ (getFromPublicLutNoB2A (M := M) t index lut st₀ st₁) fun r s₀ s₁ =>
      IsBShare r (Uint.ofField w (lut.getD (v.toNat % 2 ^ makeEven (Nat.clog 2 lut.length)) 0)) ∧
        Corr ty s₀ ∧ Corr ty s₁ := by
  have hpos : 0 < Nat.clog 2 lut.length := Nat.clog_pos (by norm_num) hn
  have hle := le_makeEven (Nat.clog 2 lut.length)
  have hev := makeEven_mod (Nat.clog 2 lut.length)
  unfold getFromPublicLutNoB2A
  refine Spec.forkJoin (ι := PartyID) ?_
  refine Spec.bind (spec_assert (by simpa using hkt)) ?_
  rintro _ _ rfl
  refine Spec.pure ?_
  refine (spec_randOhv (makeEven (Nat.clog 2 lut.length) / 2) (by omega) (by omega) h₀).mono ?_
  rintro y s₀ ⟨hy, hs₀⟩
  refine (spec_randOhv (makeEven (Nat.clog 2 lut.length) / 2) (by omega) (by omega) h₁).mono ?_
  rintro y' s₁ ⟨hy', hs₁⟩
  refine Spec.bind (spec_lowDepthPost hkt ht (hx.castTo t) hy hy' hs₀) ?_
  rintro b s₀ ⟨hb, hs₀⟩
  refine Spec.bind spec_reshare ?_
  rintro b' _ ⟨rfl, rfl⟩
  refine Spec.pure ⟨?_, hs₀, hs₁⟩
  rw [BitVec.toNat_setWidth, mod_mod_pow hkt] at hb
  exact isBShare_mk hb

/-! ### Several public tables -/

theorem cols_const {α : Type} {P : (PartyID → α) → α → Prop} {l : List α} (h : ∀ v ∈ l, P (fun _ => v) v) :
    Cols P (fun _ => l) l := by
  induction l with
  | nil => exact Cols.nil
  | cons v l ih => exact Cols.cons (h v (by simp)) (ih fun u hu => h u (by simp [hu]))

theorem max?_le_of_forall {l : List Nat} {n : Nat} (h : ∀ x ∈ l, x ≤ n) : l.max?.getD 0 ≤ n := by
  cases hl : l.max? with
  | none => simp
  | some m => simpa using h m (List.max?_mem hl)

theorem le_max? {l : List Nat} {x : Nat} (h : x ∈ l) : x ≤ l.max?.getD 0 := by
  cases hl : l.max? with
  | none => rw [List.max?_eq_none_iff] at hl; simp [hl] at h
  | some m => simpa using (List.max?_le_iff hl).1 (le_refl _) x h

theorem le_maxLen {α : Type} {luts : List (List α)} {lut : List α} (h : lut ∈ luts) : lut.length ≤ maxLen luts :=
  le_max? (List.mem_map_of_mem h)

theorem maxLen_eq {α : Type} {luts : List (List α)} {n : Nat} (h0 : luts ≠ []) (h : ∀ lut ∈ luts, lut.length = n) :
    maxLen luts = n := by
  refine le_antisymm (max?_le_of_forall ?_) ?_
  · intro x hx
    obtain ⟨l, hl, rfl⟩ := List.mem_map.1 hx
    exact (h l hl).le
  · obtain ⟨l, hl⟩ := List.exists_mem_of_ne_nil _ h0
    rw [← h l hl]
    exact le_maxLen hl

theorem ensures_getFromPublicLuts [NeZero p] {luts : List (List (ZMod p))} {n : Nat} (h0 : luts ≠ [])
    (hlen : ∀ lut ∈ luts, lut.length = n) (hn : 3 ≤ n) (hn' : n ≤ 2 ^ 32)
    (hw : modBits p + 2 ≤ w) (ho : ta = .yao → p % 2 = 1)
    (hH : ta = .yao → Yao.HashSeparates (Yao.YaoNet.hash M)) {index : PartyID → Share (ZMod p)} {x : ZMod p} (hx : IsShare index x)
    {st₀ st₁ : PartyID → Rep3State R} (h₀ : Corr ta st₀) (h₁ : Corr ty st₁) :
    Ensures₂ (getFromPublicLuts (M := M) w index luts st₀ st₁) fun r s₀ s₁ =>
      IsShares r (luts.map fun lut => lut.getD (x.val % 2 ^ makeEven (Nat.clog 2 n)) 0) ∧
        Corr ta s₀ ∧ Corr ty s₁ := by
  have hmax := maxLen_eq h0 hlen
  have hk : Nat.clog 2 n ≤ 32 := clog_le_of_le hn'
  have h2 := two_le_clog hn
  have hkt := makeEven_le_lutWidth h2 hk
  have hle := le_makeEven (Nat.clog 2 n)
  have hev := makeEven_mod (Nat.clog 2 n)
  unfold getFromPublicLuts
  refine Spec.forkJoin (ι := PartyID) ?_
  simp only [if_neg h0]
  refine Spec.bind (Q₁ := fun a s₀ => (∃ v, IsBShare a v ∧ v.toNat = x.val % 2 ^ lutWidth (Nat.clog 2 (maxLen luts))) ∧
    Corr ta s₀) (spec_castIndex (by rw [hmax]; exact hk) hw ho hx h₀) ?_
  rintro a s₀ ⟨⟨v, hv, hvx⟩, hs₀⟩
  refine Spec.bind (spec_assert (by rw [hmax]; simpa using hkt)) ?_
  rintro _ _ rfl
  refine Spec.pure ?_
  have hkt' : makeEven (Nat.clog 2 (maxLen luts)) ≤ lutWidth (Nat.clog 2 (maxLen luts)) := by rw [hmax]; exact hkt
  have hpos : 0 < makeEven (Nat.clog 2 (maxLen luts)) / 2 := by rw [hmax]; omega
  refine (spec_randOhv _ hpos (by omega) hs₀).mono ?_
  rintro y s₀ ⟨⟨u, hu, -, hr, he⟩, hs₀⟩
  refine (spec_randOhv _ hpos (by omega) h₁).mono ?_
  rintro y' s₁ ⟨⟨u', hu', hb, hr', he'⟩, hs₁⟩
  refine Spec.bind (Q₁ := fun r st' => Cols (fun (x : PartyID → BitVec w) v => x ID0 ^^^ x ID1 ^^^ x ID2 = v) r
      (luts.map fun lut => Uint.ofField w (lut.getD (v.toNat % 2 ^ makeEven (Nat.clog 2 (maxLen luts))) 0)) ∧ Corr ta st')
    (Spec.bind (spec_lowDepthOpen (makeEven_mod _) hkt'
      (by have := lutWidth_le (Nat.clog 2 (maxLen luts)); omega) hv hr hr' hu hu' hb) ?_) ?_
  · rintro c s ⟨rfl, rfl⟩
    refine Spec.mapCols (P := fun (x : PartyID → List (ZMod p)) l => (x = fun _ => l) ∧ l ∈ luts) (I := Corr ta)
      (cols_const fun l hl => ⟨rfl, hl⟩) ?_ hs₀
    rintro _ l st ⟨rfl, hl⟩ hst
    exact spec_lowDepthRead (by rw [hmax]; exact hlen l hl) (makeEven_mod _) he he' hu hu' hst
  rintro b s₀ ⟨hb, hs₀⟩
  refine Spec.bind spec_reshareMany ?_
  rintro b' _ ⟨rfl, rfl⟩
  have hcols : Cols (fun (x : PartyID → BitVec w × BitVec w) (v : ZMod p) => ∃ b : PartyID → BitVec w,
      (x = fun i => (b i, b i.prev)) ∧ b ID0 ^^^ b ID1 ^^^ b ID2 = Uint.ofField w v) (fun i => (b i).zip (b i.prev))
      (luts.map fun lut => lut.getD (x.val % 2 ^ makeEven (Nat.clog 2 n)) 0) := by
    obtain ⟨l, rfl, hl⟩ := hb
    refine ⟨l.map fun b i => (b i, b i.prev), ?_, ?_⟩
    · funext i
      rw [List.zip_map', List.map_map]; rfl
    · rw [List.forall₂_map_left_iff]
      rw [List.forall₂_map_right_iff] at hl ⊢
      refine hl.imp fun b lut h => ⟨b, rfl, ?_⟩
      rw [h, hvx, hmax, mod_mod_pow hkt]
  have := Spec.mapCols (M := M) (Q := fun (r : PartyID → Share (ZMod p)) v => IsShare r v) (g := id) (I := Corr ta)
    (f := fun _ (b : BitVec w × BitVec w) => b2aSelector (p := p) ⟨b.1, b.2⟩) hcols (by
      rintro _ v st ⟨b, rfl, hb⟩ hst
      exact spec_b2aRead hw ho hH hb hst) hs₀
  refine this.mono ?_
  rintro r s ⟨hr, hs⟩
  rw [List.map_id] at hr
  exact ⟨hr, hs, hs₁⟩

/-! ### Tables of different sizes -/

/-- All parties end with a panic. -/
def AllPanic {α S : Type} (r : PartyID → Except Err (α × S)) : Prop := ∀ i, ∃ e, r i = .error e ∧ ∃ m, e = .panic m

theorem lowDepthLoop_none (lut : List (ZMod p)) (n c : Nat) (l : List (Share (BitVec 1) × Share (BitVec 1))) (j q : Nat)
    (hq : j ≤ q ∧ q < j + l.length) (h : lut.length ≤ q ^^^ c ∧ q ^^^ c < n) (acc : BitVec w) :
    lowDepthLoop lut n c l j acc = none := by
  induction l generalizing j acc with
  | nil => simp at hq; omega
  | cons f l ih =>
    simp only [lowDepthLoop]
    rw [List.length_cons] at hq
    by_cases hj : j = q
    · subst hj
      rw [if_neg (by omega), List.getElem?_eq_none h.1]
    · split
      · exact ih _ (by omega) _
      · cases lut[j ^^^ c]? with
        | none => rfl
        | some v => exact ih _ (by omega) _

theorem length_allPairs {α β : Type} (l : List α) (l' : List β) : (allPairs l l').length = l.length * l'.length := by
  induction l with
  | nil => simp [allPairs]
  | cons x l ih => simp only [allPairs, List.flatMap_cons] at ih ⊢; simp [ih, Nat.succ_mul, Nat.add_comm]

omit [Yao.YaoRng R] [Yao.YaoNet M] in
theorem specE_lowDepthRead_short {lut : List (ZMod p)} {n k c : Nat} (hc : c < 2 ^ k) (hn : n ≤ 2 ^ k) (hlen : lut.length < n)
    {e e' : PartyID → List (Share (BitVec 1))} (he : ∀ i, (e i).length * (e' i).length = 2 ^ k) (hst : Corr ty st) :
    SpecE (M := M) (fun i => lowDepthRead w lut n c (e i) (e' i)) st AllPanic := by
  refine SpecE.bind (Bin.spec_maskBits _ hst) ?_
  rintro m st' -
  have hx : lut.length ^^^ c < 2 ^ k := Nat.xor_lt_two_pow (by omega) hc
  have hnone : ∀ i, lowDepthLoop lut n c (allPairs (e i) (e' i)) 0 (m i) = none := fun i =>
    lowDepthLoop_none lut n c _ 0 (lut.length ^^^ c) (by rw [length_allPairs, he]; omega)
      (by rw [Nat.xor_assoc, Nat.xor_self, Nat.xor_zero]; omega) _
  simp only [hnone, orPanic]
  exact SpecE.panicWith fun i => ⟨_, rfl, _, rfl⟩

theorem specE_lowDepthReads {luts : List (List (ZMod p))} {n k u u' v : Nat} (hk : k % 2 = 0) (hn : n ≤ 2 ^ k)
    (hle : ∀ lut ∈ luts, lut.length ≤ n) (hshort : ∃ lut ∈ luts, lut.length < n)
    {e e' : PartyID → List (Share (BitVec 1))} (he : IsBShares e (hot (k / 2) u))
    (he' : IsBShares e' (hot (k / 2) u')) (hu : u < 2 ^ (k / 2)) (hu' : u' < 2 ^ (k / 2)) (hst : Corr ty st) :
    SpecE (M := M) (fun i => luts.mapM fun lut =>
      lowDepthRead w lut n (((u * 2 ^ (k / 2) + u') ^^^ v) % 2 ^ k) (e i) (e' i)) st AllPanic := by
  have hlen : ∀ i, (e i).length * (e' i).length = 2 ^ k := fun i => by
    rw [Cols.length he i, Cols.length he' i, hot_length, hot_length, ← pow_add]
    congr 1; omega
  induction luts generalizing st with
  | nil => simp at hshort
  | cons lut luts ih =>
    simp only [List.mapM_cons]
    by_cases h : lut.length < n
    · refine SpecE.bindE (Q₁ := fun _ _ => False) (Qe := fun e => ∀ i, ∃ m, e i = .panic m)
        ((specE_lowDepthRead_short (Nat.mod_lt _ (Nat.two_pow_pos k)) hn h hlen hst).mono ?_) (fun _ _ h => h.elim) ?_
      · intro r hr
        exact .inl ⟨fun i => (hr i).choose, fun i => (hr i).choose_spec.1, fun i => (hr i).choose_spec.2⟩
      · intro e he i
        exact ⟨e i, rfl, he i⟩
    · refine SpecE.bind (spec_lowDepthRead (by have := hle lut (by simp); omega) hk he he' hu hu' hst) ?_
      rintro r st' ⟨-, hst'⟩
      refine SpecE.bindE (Q₁ := fun _ _ => False) (Qe := fun e => ∀ i, ∃ m, e i = .panic m)
        ((ih (fun l hl => hle l (by simp [hl])) ?_ hst').mono ?_) (fun _ _ h => h.elim) ?_
      · obtain ⟨l, hl, hlt⟩ := hshort
        rcases List.mem_cons.1 hl with rfl | hl
        · exact absurd hlt h
        · exact ⟨l, hl, hlt⟩
      · intro r hr
        exact .inl ⟨fun i => (hr i).choose, fun i => (hr i).choose_spec.1, fun i => (hr i).choose_spec.2⟩
      · intro e he i
        exact ⟨e i, rfl, he i⟩

omit [Yao.YaoRng R] [Yao.YaoNet M] in
theorem SpecE.bind_panic {α β : Type} {p : PartyID → Rep3M R M α} {k : PartyID → α → Rep3M R M β}
    (h : SpecE p st AllPanic) : SpecE (fun i => p i >>= k i) st AllPanic := by
  refine SpecE.bindE (Q₁ := fun _ _ => False) (Qe := fun e => ∀ i, ∃ m, e i = .panic m)
    (h.mono ?_) (fun _ _ h => h.elim) ?_
  · intro r hr
    exact .inl ⟨fun i => (hr i).choose, fun i => (hr i).choose_spec.1, fun i => (hr i).choose_spec.2⟩
  · intro e he i
    exact ⟨e i, rfl, he i⟩

theorem fails_getFromPublicLuts [NeZero p] {luts : List (List (ZMod p))} {lut : List (ZMod p)} (hmem : lut ∈ luts)
    (hshort : lut.length < maxLen luts) (hn : 3 ≤ maxLen luts) (hn' : maxLen luts ≤ 2 ^ 32)
    (hw : modBits p + 2 ≤ w) (ho : ta = .yao → p % 2 = 1) {index : PartyID → Share (ZMod p)} {x : ZMod p} (hx : IsShare index x)
    {st₀ st₁ : PartyID → Rep3State R} (h₀ : Corr ta st₀) (h₁ : Corr ty st₁) :
    Fails₂ (getFromPublicLuts (M := M) w index luts st₀ st₁) fun e => ∃ m, e = .panic m := by
  have h0 : luts ≠ [] := List.ne_nil_of_mem hmem
  have hk : Nat.clog 2 (maxLen luts) ≤ 32 := clog_le_of_le hn'
  have h2 := two_le_clog hn
  have hkt := makeEven_le_lutWidth h2 hk
  have hle := le_makeEven (Nat.clog 2 (maxLen luts))
  have hev := makeEven_mod (Nat.clog 2 (maxLen luts))
  unfold getFromPublicLuts
  refine SpecE.forkJoin_post (ι := PartyID) ?_
  simp only [if_neg h0]
  refine Spec.bind (Q₁ := fun a s₀ => (∃ v, IsBShare a v ∧ v.toNat = x.val % 2 ^ lutWidth (Nat.clog 2 (maxLen luts))) ∧
    Corr ta s₀) (spec_castIndex hk hw ho hx h₀) ?_
  rintro a s₀ ⟨⟨v, hv, hvx⟩, hs₀⟩
  refine Spec.bind (spec_assert (by simpa using hkt)) ?_
  rintro _ _ rfl
  refine Spec.pure ?_
  refine (spec_randOhv (makeEven (Nat.clog 2 (maxLen luts)) / 2) (by omega) (by omega) hs₀).mono ?_
  rintro y s₀ ⟨⟨u, hu, -, hr, he⟩, hs₀⟩
  refine (spec_randOhv (makeEven (Nat.clog 2 (maxLen luts)) / 2) (by omega) (by omega) h₁).mono ?_
  rintro y' s₁ ⟨⟨u', hu', hb, hr', he'⟩, hs₁⟩
  refine SpecE.bind_panic ?_
  refine SpecE.bind (spec_lowDepthOpen (makeEven_mod _) hkt
    (by have := lutWidth_le (Nat.clog 2 (maxLen luts)); omega) hv hr hr' hu hu' hb) ?_
  rintro c s ⟨rfl, rfl⟩
  exact specE_lowDepthReads (makeEven_mod _)
    (le_trans le_two_pow_clog (Nat.pow_le_pow_right (by norm_num) hle))
    (fun l hl => le_maxLen hl) ⟨lut, hmem, hshort⟩ he he' hu hu' hs₀

/-! ### Tables that are too short -/

theorem fails_getFromPublicLut_two [NeZero p] {lut : List (ZMod p)} (hn : lut.length = 2) (hw : modBits p + 2 ≤ w) (ho : ta = .yao → p % 2 = 1)
    {index : PartyID → Share (ZMod p)} {x : ZMod p} (hx : IsShare index x)
    {st₀ st₁ : PartyID → Rep3State R} (h₀ : Corr ta st₀) :
    Fails₂ (getFromPublicLut (M := M) w index lut st₀ st₁) fun e => ∃ m, e = .panic m := by
  have hk : Nat.clog 2 lut.length = 1 := by rw [hn]; rfl
  unfold getFromPublicLut
  refine SpecE.forkJoin_pre (ι := PartyID) ?_
  refine SpecE.bind (Q₁ := fun _ _ => True)
    ((spec_castIndex (by rw [hk]; omega) hw ho hx h₀).mono fun _ _ _ => trivial) ?_
  rintro a s₀ -
  refine SpecE.bind_panic ?_
  rw [hk]
  exact SpecE.panicWith fun i => ⟨_, rfl, _, rfl⟩

omit [∀ w, UintCodec M w] [Sample R (ZMod p)] [Codec M (List (ZMod p))] in
theorem specE_randOhv_zero {k : Nat} [∀ w, UintCodec M w] : SpecE (M := M) (fun _ => randOhv k 0) st AllPanic := by
  refine SpecE.bind (Q₁ := fun _ _ => True) (spec_withRand trivial) ?_
  rintro a s₀ -
  refine SpecE.bind_panic ?_
  exact SpecE.panicWith fun i => ⟨_, rfl, _, rfl⟩

theorem fails_getFromPublicLut_one [NeZero p] {lut : List (ZMod p)} (hn : lut.length ≤ 1) (hw : modBits p + 2 ≤ w) (ho : ta = .yao → p % 2 = 1)
    {index : PartyID → Share (ZMod p)} {x : ZMod p} (hx : IsShare index x)
    {st₀ st₁ : PartyID → Rep3State R} (h₀ : Corr ta st₀) :
    Fails₂ (getFromPublicLut (M := M) w index lut st₀ st₁) fun e => ∃ m, e = .panic m := by
  have hk : Nat.clog 2 lut.length = 0 := Nat.clog_of_right_le_one hn 2
  unfold getFromPublicLut
  refine SpecE.forkJoin_first (ι := PartyID) ?_
  refine Spec.bind (Q₁ := fun _ _ => True)
    ((spec_castIndex (by rw [hk]; omega) hw ho hx h₀).mono fun _ _ _ => trivial) ?_
  rintro a s₀ -
  refine Spec.bind (spec_assert (by rw [hk]; rfl)) ?_
  rintro _ _ rfl
  refine Spec.pure ⟨?_, ?_⟩
  · rw [hk]; exact specE_randOhv_zero
  · rw [hk]; exact specE_randOhv_zero.mono fun _ _ => trivial

end Verif.Rep3.Lut
