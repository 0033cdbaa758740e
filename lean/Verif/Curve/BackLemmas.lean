import Verif.Curve.ConvertLemmas

/-!
# Lemmas: from shared coordinates to a shared point
-/

namespace Verif.Rep3.Curve

open PartyID

variable {R M : Type} {p w : Nat} [Fact p.Prime] {a b : ZMod p} {ty : A2BType}
variable {st : PartyID → Rep3State R}
variable [Sample R (ZMod p)] [Codec M (List (ZMod p))] [Sample R (BitVec w)] [UintCodec M w]
variable [Sample R (Pt a b)] [Yao.YaoRng R] [Yao.YaoNet M]

/-- The sum of the three points a party draws from a three-key generator. -/
def keySum (a b : ZMod p) [Sample R (Pt a b)] (g : BitComp R) : Pt a b :=
  match g.random3 (α := Pt a b) with
  | some (k, _) => k.1 + k.2.1 + k.2.2
  | none => 0

/-- The random point that party 2 draws to blind a conversion to points. -/
def blindPoint (a b : ZMod p) [Sample R (Pt a b)] (st : PartyID → Rep3State R) : Pt a b :=
  keySum a b (st ID2).rngs.bitcomp1 + keySum a b (st ID2).rngs.bitcomp2

/-- The states after the keys for one point were drawn. -/
def afterKeys (a b : ZMod p) [Sample R (Pt a b)] (st : PartyID → Rep3State R) :
    PartyID → Rep3State R := fun i =>
  { st i with
    rngs :=
      { (st i).rngs with
        bitcomp1 :=
          match i, (st i).rngs.bitcomp1.random3 (α := Pt a b) with
          | ID0, _ => (st i).rngs.bitcomp1
          | _, some (_, g) => g
          | _, none => (st i).rngs.bitcomp1
        bitcomp2 :=
          match i, (st i).rngs.bitcomp2.random3 (α := Pt a b) with
          | ID1, _ => (st i).rngs.bitcomp2
          | _, some (_, g) => g
          | _, none => (st i).rngs.bitcomp2 } }

omit [Yao.YaoRng R] in
theorem Corr.afterKeys (hst : Corr ty st) : Corr ty (afterKeys a b st) := by
  constructor <;> (try intro i) <;> (try cases i) <;>
    simp [Curve.afterKeys, BitComp.random3, hst.id, hst.rand, hst.a2b, hst.bc1a, hst.bc1b, hst.bc1c,
      hst.bc2a, hst.bc2b, hst.bc2c]

omit [Yao.YaoRng R] [Yao.YaoNet M] in
theorem spec_pointKeys {rx ry : PartyID → ZMod p} (hst : Corr ty st) :
    Spec (M := M) (fun i => pointKeys (a := a) (b := b) i (rx i) (ry i)) st (fun r st' =>
      (r = three ((rx ID0, ry ID0), ⟨0, -keySum a b (st ID2).rngs.bitcomp2⟩)
        ((rx ID1, ry ID1), ⟨-keySum a b (st ID2).rngs.bitcomp1, 0⟩)
        ((rx ID2 + coordX (blindPoint a b st), ry ID2 + coordY (blindPoint a b st)),
          ⟨-keySum a b (st ID2).rngs.bitcomp2, -keySum a b (st ID2).rngs.bitcomp1⟩)) ∧
      st' = afterKeys a b st) := by
  refine Spec3 ?_
  simp only [pointKeys, bitcomp1Curves, bitcomp2Curves, withRngs?, BitComp.random3, MPC.bind_apply,
    hst.bc1a, hst.bc1b, hst.bc1c, hst.bc2a, hst.bc2b, hst.bc2c, Option.map_some, Prog.ret_bind,
    MPC.pure_apply, W3_ret, maskedCoords_eq]
  refine ⟨?_, ?_⟩
  · funext i
    cases i
    · simp only [three_0, Prod.mk.injEq, Share.mk.injEq, true_and, keySum, BitComp.random3, hst.bc2b]
      abel
    · simp only [three_1, Prod.mk.injEq, Share.mk.injEq, true_and, and_true, keySum, BitComp.random3,
        hst.bc1a, hst.bc1b]
      abel
    · simp only [three_2, keySum, blindPoint, BitComp.random3, hst.bc1a, hst.bc1b, hst.bc2b]
  · funext i
    cases i <;> simp [afterKeys, BitComp.random3, hst.bc1a, hst.bc1b, hst.bc1c, hst.bc2a, hst.bc2b, hst.bc2c]

omit [Yao.YaoRng R] [Yao.YaoNet M] in
/-- Drawing a mask leaves the three-key generators alone. -/
theorem spec_maskElem' (hst : Corr ty st) :
    Spec (M := M) (fun _ => maskElem (F := ZMod p)) st
      (fun m st' => m ID0 + m ID1 + m ID2 = 0 ∧ Corr ty st' ∧
        ∀ i, (st' i).rngs.bitcomp1 = (st i).rngs.bitcomp1 ∧
          (st' i).rngs.bitcomp2 = (st i).rngs.bitcomp2) := by
  refine spec_withRand (f := fun _ => Rep3Rand.masking) ⟨?_, Corr.setRand hst ?_, ?_⟩
  · simp [Rep3Rand.masking, Rep3Rand.randomPair, hst.rand]
  · intro i
    simp [Rep3Rand.masking, Rep3Rand.randomPair, hst.rand i]
  · intro i; exact ⟨rfl, rfl⟩

omit [Yao.YaoRng R] in
theorem blindPoint_congr {st st' : PartyID → Rep3State R}
    (h : ∀ i, (st' i).rngs.bitcomp1 = (st i).rngs.bitcomp1 ∧
      (st' i).rngs.bitcomp2 = (st i).rngs.bitcomp2) : blindPoint a b st' = blindPoint a b st := by
  simp [blindPoint, (h ID2).1, (h ID2).2]

omit [Yao.YaoRng R] [Yao.YaoNet M] in
theorem spec_pointMask (hst : Corr ty st) :
    Spec (M := M) (fun _ => pointMask (a := a) (b := b)) st (fun r st' =>
      IsShare (fun i => (r i).1.1) (coordX (blindPoint a b st)) ∧
      IsShare (fun i => (r i).1.2) (coordY (blindPoint a b st)) ∧
      (∃ K2 K3 : Pt a b, K2 + K3 = blindPoint a b st ∧ (r ID0).2.b = -K3 ∧ (r ID1).2.a = -K2 ∧
        (r ID2).2 = ⟨-K3, -K2⟩) ∧ Corr ty st') := by
  refine Spec.bind (spec_maskElem' hst) ?_
  rintro rx st1 ⟨hrx, hst1, hb1⟩
  refine Spec.bind (spec_maskElem' hst1) ?_
  rintro ry st2 ⟨hry, hst2, hb2⟩
  have hB : blindPoint a b st2 = blindPoint a b st := by
    rw [blindPoint_congr hb2, blindPoint_congr hb1]
  rw [← hB]
  refine Spec.bind (spec_stateId hst2) ?_
  rintro _ _ ⟨rfl, rfl⟩
  refine Spec.bind (spec_pointKeys hst2) ?_
  rintro _ _ ⟨rfl, rfl⟩
  refine Spec.bind spec_reshareMany ?_
  rintro _ _ ⟨rfl, rfl⟩
  refine Spec.pure ⟨?_, ?_, ⟨_, _, rfl, rfl, rfl, rfl⟩, Corr.afterKeys hst2⟩
  · refine isShare_mk (x := fun i => ((three _ _ _ : PartyID → (ZMod p × ZMod p) × Share (Pt a b)) i).1.1) ?_
    simp only [three_0, three_1, three_2]
    linear_combination hrx
  · refine isShare_mk (x := fun i => ((three _ _ _ : PartyID → (ZMod p × ZMod p) × Share (Pt a b)) i).1.2) ?_
    simp only [three_0, three_1, three_2]
    linear_combination hry

omit [Yao.YaoRng R] [Yao.YaoNet M] in
theorem pointFromXY_apply {T : Pt a b} {x y : ZMod p} (h : HasCoords T x y) (i : PartyID)
    (s : Rep3State R) : (pointFromXY x y 0 : Rep3M R M (Pt a b)) i s = .ret (T, s) := by
  obtain ⟨h, rfl⟩ := h
  simp [pointFromXY, h]

omit [Yao.YaoRng R] [Yao.YaoNet M] in
theorem spec_pointOpen {zx zy zi : PartyID → Share (ZMod p)} {T : Pt a b} {x y : ZMod p}
    (hT : HasCoords T x y) (hx : IsShare zx x) (hy : IsShare zy y) (hi : IsShare zi 0)
    (res : PartyID → Share (Pt a b)) :
    Spec (M := M) (fun i => pointOpen i (zx i) (zy i) (zi i) (res i)) st (fun r st' =>
      (r = three ⟨T, (res ID0).b⟩ ⟨(res ID1).a, T⟩ (res ID2)) ∧ st' = st) := by
  have e : ∀ {z : PartyID → Share (ZMod p)} {v : ZMod p}, IsShare z v →
      (z ID0).a + (z ID2).a + (z ID1).a = v ∧ (z ID1).a + (z ID0).a + (z ID2).a = v := by
    intro z v h
    rw [← h.2]
    exact ⟨by ring, by ring⟩
  refine Spec3 ?_
  simp [pointOpen, sendNextMany, recvPrevMany, sendMany, recvMany, MPC.recv_apply,
    hx.b0, hx.b1, hx.b2, hy.b0, hy.b1, hy.b2, hi.b0, hi.b1, hi.b2, (e hx).1, (e hx).2, (e hy).1,
    (e hy).2, (e hi).1, (e hi).2, pointFromXY_apply hT]
  exact three_eta _

/-- The blinded coordinates are those of `P + K`. -/
theorem addFormula_blind {P K : Pt a b} {x y : ZMod p} (hK : K ≠ 0) (hP : HasCoords P x y)
    (hx : coordX K ≠ x) :
    HasCoords (P + K) (addFormula x y (coordX K) (coordY K)).1 (addFormula x y (coordX K) (coordY K)).2.1 ∧
      (addFormula x y (coordX K) (coordY K)).2.2 = 0 := by
  obtain ⟨kx, ky, hk, -⟩ := exists_coords hK
  rw [hk.coord.1] at *
  rw [hk.coord.2]
  have hx' : x ≠ kx := Ne.symm hx
  have := add_coords hP hk hx'
  refine ⟨by simpa [addFormula, hx'] using this, by simp [addFormula, hx']⟩

theorem spec_toPoint {X Y I : PartyID → Share (ZMod p)} {P : Pt a b} {x y inf : ZMod p}
    (hw : modBits p + 2 ≤ w) (ho : ty = .yao → p % 2 = 1) (hX : IsShare X x) (hY : IsShare Y y) (hI : IsShare I inf)
    (hP : (inf = 0 ∧ HasCoords P x y) ∨ (inf = 1 ∧ P = 0))
    (hK : blindPoint a b st ≠ 0) (hKx : coordX (blindPoint a b st) ≠ x) (hst : Corr ty st) :
    SpecE (M := M) (fun i => fieldsharesToPointshare w (X i) (Y i) (I i)) st
      (AllOrNone (Spec (M := M) (fun i => pointMask (a := a) (b := b) >>= fun m =>
            diffOrOne w (X i) m.1.1) st
          (fun _ s => randValue (ZMod p) s = 0))
        (fun r st' => IsShare r P ∧ Corr ty st')) := by
  obtain ⟨m, s1, ⟨h1, h2, ⟨K2, K3, hKK, e0, e1, e2⟩, hst1⟩, hrun⟩ :=
    (spec_pointMask (M := M) (a := a) (b := b) hst).exact
  refine SpecE.bind hrun ?_
  rintro v s ⟨hv, hs⟩
  rw [hv, hs]
  refine SpecE.bindAll (spec_pointAddition hw ho hX hY h1 h2 hst1) ?_ ?_
  · rintro z st2 ⟨hz1, hz2, hz3, hst2⟩
    refine SpecE.mono (Spec.specE (Q := fun r st' => IsShare r P ∧ Corr ty st') ?_)
      (fun r h => Or.inr h)
    have hc1 : IsShares (fun i => [(m i).1.1, (m i).1.2]) [coordX (blindPoint a b st), coordY (blindPoint a b st)] :=
      Cols.cons h1 (Cols.cons h2 Cols.nil)
    have hc2 : IsShares (fun i => [(z i).1, (z i).2.1]) _ := Cols.cons hz1 (Cols.cons hz2 Cols.nil)
    refine Spec.bind (spec_cmuxVec hI hc1 hc2 hst2) ?_
    rintro c st3 ⟨hc, hst3⟩
    refine Spec.bind (spec_stateId hst3) ?_
    rintro _ _ ⟨rfl, rfl⟩
    obtain ⟨l, rfl, hl⟩ := hc
    simp only [List.zipWith_cons_cons, List.zipWith_nil_left] at hl
    cases hl with
    | @cons cx _ _ _ hcx hl =>
    cases hl with
    | @cons cy _ _ _ hcy hl =>
    cases hl
    simp only [List.map_cons, List.map_nil]
    -- the opened point
    obtain ⟨T, hT, hTe⟩ : ∃ T : Pt a b, HasCoords T
        ((coordX (blindPoint a b st) - (addFormula x y (coordX (blindPoint a b st)) (coordY (blindPoint a b st))).1) * inf +
          (addFormula x y (coordX (blindPoint a b st)) (coordY (blindPoint a b st))).1)
        ((coordY (blindPoint a b st) - (addFormula x y (coordX (blindPoint a b st)) (coordY (blindPoint a b st))).2.1) * inf +
          (addFormula x y (coordX (blindPoint a b st)) (coordY (blindPoint a b st))).2.1) ∧
        T = P + blindPoint a b st := by
      rcases hP with ⟨rfl, hP⟩ | ⟨rfl, rfl⟩
      · refine ⟨_, ?_, rfl⟩
        simpa using (addFormula_blind hK hP hKx).1
      · refine ⟨_, ?_, rfl⟩
        obtain ⟨kx, ky, hk, -⟩ := exists_coords hK
        simpa [hk.coord.1, hk.coord.2] using hk
    have hz0 : (addFormula x y (coordX (blindPoint a b st)) (coordY (blindPoint a b st))).2.2 = 0 := by
      simp [addFormula, Ne.symm hKx]
    rw [hz0] at hz3
    refine (spec_pointOpen hT hcx hcy hz3 _).mono ?_
    rintro r st4 ⟨rfl, rfl⟩
    refine ⟨?_, hst3⟩
    rw [isShare_iff]
    simp only [three_0, three_1, three_2, e0, e1, e2]
    refine ⟨⟨trivial, trivial, trivial⟩, ?_⟩
    rw [hTe, ← hKK]; abel
  · rintro e hbad
    refine Or.inl ⟨e, fun _ => rfl, Spec.bind hrun ?_⟩
    rintro _ _ ⟨rfl, rfl⟩
    exact hbad

section Many

variable [SampleVec R (ZMod p)] [Codec M (List (List (ZMod p)))]

omit [Yao.YaoRng R] [Yao.YaoNet M] in
theorem spec_maskFieldVec (n : Nat) (hst : Corr ty st) :
    Spec (M := M) (fun _ => withRand fun g => g.maskingFieldVec (α := ZMod p) n) st (fun r st' =>
      (∃ ms : List (PartyID → ZMod p), ms.length = n ∧ (r = fun i => ms.map (· i)) ∧
        ∀ m ∈ ms, m ID0 + m ID1 + m ID2 = 0) ∧ Corr ty st' ∧
        ∀ i, (st' i).rngs.bitcomp1 = (st i).rngs.bitcomp1 ∧
          (st' i).rngs.bitcomp2 = (st i).rngs.bitcomp2) := by
  let sv : PartyID → List (ZMod p) := fun i => (SampleVec.sampleVec (st i).rngs.rand.rng1 n).1
  have hsv : ∀ i, (sv i).length = n := fun i => SampleVec.length_eq _ _
  refine spec_withRand (f := fun _ g => g.maskingFieldVec (α := ZMod p) n) ⟨?_, hst.setRand ?_, ?_⟩
  · refine ⟨(List.range n).map fun k i => (sv i)[k]?.getD 0 - (sv i.prev)[k]?.getD 0, by simp, ?_, ?_⟩
    · funext i
      apply List.ext_getElem
      · simp [Rep3Rand.maskingFieldVec, hst.rand i]
        have h1 := hsv i
        have h2 := hsv i.prev
        simp only [sv] at h1 h2
        rw [h1, h2]; simp
      · intro k hk hk'
        have hk2 : k < n := by simpa using hk'
        simp [Rep3Rand.maskingFieldVec, hst.rand i, sv]
        rw [List.getElem?_eq_getElem (by have := hsv i; simp only [sv] at this; omega),
          List.getElem?_eq_getElem (by have := hsv i.prev; simp only [sv] at this; omega)]
        simp
    · intro m hm
      obtain ⟨k, -, rfl⟩ := List.mem_map.1 hm
      simp
  · intro i; simp [Rep3Rand.maskingFieldVec, hst.rand i]
  · intro i; exact ⟨rfl, rfl⟩

/-- The random points that party 2 draws to blind a vector of conversions. -/
def blindPoints (a b : ZMod p) [Sample R (Pt a b)] : Nat → (PartyID → Rep3State R) → List (Pt a b)
  | 0, _ => []
  | n + 1, st => blindPoint a b st :: blindPoints a b n (afterKeys a b st)

omit [Yao.YaoRng R] in
@[simp] theorem blindPoints_length (n : Nat) (st : PartyID → Rep3State R) :
    (blindPoints a b n st).length = n := by
  induction n generalizing st with
  | zero => rfl
  | succ n ih => simp [blindPoints, ih]

omit [Yao.YaoRng R] in
theorem afterKeys_congr {st st' : PartyID → Rep3State R}
    (h : ∀ i, (st' i).rngs.bitcomp1 = (st i).rngs.bitcomp1 ∧
      (st' i).rngs.bitcomp2 = (st i).rngs.bitcomp2) (i : PartyID) :
    (afterKeys a b st' i).rngs.bitcomp1 = (afterKeys a b st i).rngs.bitcomp1 ∧
      (afterKeys a b st' i).rngs.bitcomp2 = (afterKeys a b st i).rngs.bitcomp2 := by
  simp only [afterKeys, (h i).1, (h i).2]
  exact ⟨trivial, trivial⟩

omit [Yao.YaoRng R] in
theorem blindPoints_congr (n : Nat) {st st' : PartyID → Rep3State R}
    (h : ∀ i, (st' i).rngs.bitcomp1 = (st i).rngs.bitcomp1 ∧
      (st' i).rngs.bitcomp2 = (st i).rngs.bitcomp2) : blindPoints a b n st' = blindPoints a b n st := by
  induction n generalizing st st' with
  | zero => rfl
  | succ n ih => simp only [blindPoints, blindPoint_congr h, ih (afterKeys_congr h)]

/-- One element after the keys were drawn: the coordinates of the blinding point are additively shared,
and the known parts of the result are in place. -/
def KeyMid (r : PartyID → (ZMod p × ZMod p) × Share (Pt a b)) (K : Pt a b) : Prop :=
  (r ID0).1.1 + (r ID1).1.1 + (r ID2).1.1 = coordX K ∧
  (r ID0).1.2 + (r ID1).1.2 + (r ID2).1.2 = coordY K ∧
  ∃ K2 K3 : Pt a b, K2 + K3 = K ∧ (r ID0).2.b = -K3 ∧ (r ID1).2.a = -K2 ∧ (r ID2).2 = ⟨-K3, -K2⟩

omit [SampleVec R (ZMod p)] [Codec M (List (List (ZMod p)))] in
omit [Yao.YaoRng R] [Yao.YaoNet M] in
theorem spec_keysMany (ms : List (PartyID → ZMod p × ZMod p))
    (hm : ∀ m ∈ ms, (m ID0).1 + (m ID1).1 + (m ID2).1 = 0 ∧ (m ID0).2 + (m ID1).2 + (m ID2).2 = 0)
    (hst : Corr ty st) :
    Spec (M := M) (fun i => (ms.map (· i)).mapM fun (r : ZMod p × ZMod p) =>
        pointKeys (a := a) (b := b) i r.1 r.2) st
      (fun r st' => Cols KeyMid r (blindPoints a b ms.length st) ∧ Corr ty st') := by
  induction ms generalizing st with
  | nil => exact Spec.pure ⟨Cols.nil, hst⟩
  | cons m ms ih =>
    simp only [List.map_cons, List.mapM_cons]
    refine Spec.bind (spec_pointKeys (rx := fun i => (m i).1) (ry := fun i => (m i).2) hst) ?_
    rintro v _ ⟨hv, rfl⟩
    refine Spec.bind (ih (fun m' h => hm m' (by simp [h])) (Corr.afterKeys hst)) ?_
    rintro vs st2 ⟨hvs, hst2⟩
    refine Spec.pure ⟨?_, hst2⟩
    obtain ⟨h1, h2⟩ := hm m (by simp)
    refine Cols.cons ?_ hvs
    rw [hv]
    refine ⟨?_, ?_, _, _, rfl, rfl, rfl, rfl⟩
    · simp only [three_0, three_1, three_2]; linear_combination h1
    · simp only [three_0, three_1, three_2]; linear_combination h2

theorem spec_pointMaskMany (n : Nat) (hst : Corr ty st) :
    Spec (M := M) (fun _ => pointMaskMany (a := a) (b := b) n) st (fun r st' =>
      IsShares (fun i => (r i).1.1) ((blindPoints a b n st).map coordX) ∧
      IsShares (fun i => (r i).1.2) ((blindPoints a b n st).map coordY) ∧
      Cols (fun (q : PartyID → Share (Pt a b)) K => ∃ K2 K3 : Pt a b, K2 + K3 = K ∧ (q ID0).b = -K3 ∧
        (q ID1).a = -K2 ∧ (q ID2) = ⟨-K3, -K2⟩) (fun i => (r i).2) (blindPoints a b n st) ∧
      Corr ty st') := by
  refine Spec.bind (spec_maskFieldVec n hst) ?_
  rintro _ st1 ⟨⟨ms1, hl1, rfl, hm1⟩, hst1, hb1⟩
  refine Spec.bind (spec_maskFieldVec n hst1) ?_
  rintro _ st2 ⟨⟨ms2, hl2, rfl, hm2⟩, hst2, hb2⟩
  have hB : blindPoints a b n st = blindPoints a b n st2 := by
    rw [blindPoints_congr n hb2, blindPoints_congr n hb1]
  rw [hB]
  refine Spec.bind (spec_stateId hst2) ?_
  rintro _ _ ⟨rfl, rfl⟩
  have hz : ∀ i, (ms1.map (· i)).zip (ms2.map (· i)) =
      (List.zipWith (fun x y (i : PartyID) => (x i, y i)) ms1 ms2).map (· i) := by
    intro i
    rw [List.map_zipWith, List.zip, List.zipWith_map]
  simp only [hz]
  have hk := spec_keysMany (M := M) (a := a) (b := b)
    (List.zipWith (fun x y (i : PartyID) => (x i, y i)) ms1 ms2) (by
      intro m hm
      obtain ⟨k, hk, rfl⟩ := List.mem_iff_getElem.1 hm
      simp only [List.length_zipWith] at hk
      simp only [List.getElem_zipWith]
      exact ⟨hm1 _ (List.getElem_mem _), hm2 _ (List.getElem_mem _)⟩) hst2
  simp only [List.length_zipWith, hl1, hl2, min_self] at hk
  refine Spec.bind hk ?_
  rintro r st3 ⟨⟨l, rfl, hl⟩, hst3⟩
  have hll : l.length = n := by rw [hl.length_eq, blindPoints_length]
  refine Spec.bind spec_reshareMany ?_
  rintro _ _ ⟨rfl, rfl⟩
  simp only [List.length_map, hll, lt_self_iff_false, or_self, if_false]
  refine Spec.pure ⟨?_, ?_, ?_, hst3⟩
  · refine ⟨l.map fun r => replicate fun i => (r i).1.1, ?_, ?_⟩
    · funext i; simp [List.map_map, Function.comp_def, zipWith_maps, replicate]
    · rw [List.forall₂_map_left_iff, List.forall₂_map_right_iff]
      exact hl.imp fun r K h => isShare_replicate h.1
  · refine ⟨l.map fun r => replicate fun i => (r i).1.2, ?_, ?_⟩
    · funext i; simp [List.map_map, Function.comp_def, zipWith_maps, replicate]
    · rw [List.forall₂_map_left_iff, List.forall₂_map_right_iff]
      exact hl.imp fun r K h => isShare_replicate h.2.1
  · refine ⟨l.map fun r i => (r i).2, ?_, ?_⟩
    · funext i; simp
    · rw [List.forall₂_map_left_iff]
      exact hl.imp fun r K h => h.2.2

omit [SampleVec R (ZMod p)] [Codec M (List (List (ZMod p)))] in
omit [Yao.YaoRng R] [Yao.YaoNet M] in
theorem pointsFromXY_apply {α : Type} (us : List α) {T : α → Pt a b} {x y : α → ZMod p}
    (h : ∀ u ∈ us, HasCoords (T u) (x u) (y u)) (i : PartyID) (s : Rep3State R) :
    (pointsFromXY (us.map x) (us.map y) (us.map fun _ => 0) : Rep3M R M (List (Pt a b))) i s =
      .ret (us.map T, s) := by
  induction us generalizing s with
  | nil => rfl
  | cons u us ih =>
    have ih' := ih (fun u hu => h u (by simp [hu]))
    simp only [pointsFromXY] at ih' ⊢
    simp only [List.map_cons, List.zip_cons_cons, List.mapM_cons, MPC.bind_apply,
      pointFromXY_apply (h u (by simp)), Prog.ret_bind, ih']
    rfl

omit [Sample R (ZMod p)] [Codec M (List (ZMod p))] [Sample R (Pt a b)] [SampleVec R (ZMod p)]
  [Codec M (List (List (ZMod p)))] in
theorem open_cols {z : PartyID → List (Share (ZMod p))} {W : List (ZMod p)} (hz : IsShares z W)
    (i : PartyID) : List.zipWith (· + ·) (List.zipWith (· + ·) ((z i).map Share.a) ((z i).map Share.b))
      ((z i.prev).map Share.b) = W := by
  obtain ⟨l, rfl, hl⟩ := hz
  simp only [List.map_map, Function.comp_def, zipWith_maps]
  induction hl with
  | nil => rfl
  | @cons x v _ _ h _ ih =>
    simp only [List.map_cons, ih, List.cons.injEq, and_true]
    rw [← h.2]
    cases i <;> simp [h.b0, h.b1, h.b2] <;> ring

omit [SampleVec R (ZMod p)] [Codec M (List (List (ZMod p)))] in
theorem spec_pointOpenMany {α : Type} {us : List α} {T : α → Pt a b} {x y : α → ZMod p}
    (hT : ∀ u ∈ us, HasCoords (T u) (x u) (y u)) {zx zy zi : PartyID → List (Share (ZMod p))}
    (hx : IsShares zx (us.map x)) (hy : IsShares zy (us.map y)) (hi : IsShares zi (us.map fun _ => 0))
    (res : PartyID → List (Share (Pt a b))) :
    Spec (M := M) (fun i => pointOpenMany us.length i (zx i) (zy i) (zi i) (res i)) st (fun r st' =>
      (r = three (List.zipWith (fun (s : Share (Pt a b)) q => { s with a := q }) (res ID0) (us.map T))
        (List.zipWith (fun (s : Share (Pt a b)) q => { s with b := q }) (res ID1) (us.map T))
        (res ID2)) ∧ st' = st) := by
  have hW : IsShares (fun i => zx i ++ zy i ++ zi i) (us.map x ++ us.map y ++ us.map fun _ => 0) :=
    Cols.append (Cols.append hx hy) hi
  have h0 := open_cols hW ID0
  have h1 := open_cols hW ID1
  simp only [List.map_append, ID0_prev, ID1_prev] at h0 h1
  have hlen : ∀ i, (zx i).length + ((zy i).length + (zi i).length) = 3 * us.length := fun i => by
    rw [Cols.length hx i, Cols.length hy i, Cols.length hi i]; simp; omega
  have t1 : List.take us.length (us.map x ++ us.map y ++ us.map fun _ => (0 : ZMod p)) = us.map x := by
    simp [List.append_assoc]
  have t2 : List.take us.length (List.drop us.length (us.map x ++ us.map y ++ us.map fun _ => (0 : ZMod p)))
      = us.map y := by
    simp [List.append_assoc]
  have t3 : List.drop (2 * us.length) (us.map x ++ us.map y ++ us.map fun _ => (0 : ZMod p))
      = us.map fun _ => 0 := by
    have : (us.map x ++ us.map y).length = 2 * us.length := by simp; omega
    rw [← this, List.drop_left]
  simp only [List.append_assoc] at h0 h1 t1 t2 t3
  refine Spec3 ?_
  simp only [pointOpenMany, sendNextMany, recvPrevMany, sendMany, recvMany]
  simp [-List.map_const', -List.map_const, MPC.recv_apply, hlen, h0, h1, t1, t2, t3, pointsFromXY_apply us hT]
  exact three_eta _

/-- The coordinates that are opened for one element. -/
def openedCoords (u : (Pt a b × ZMod p × ZMod p × ZMod p) × Pt a b) : ZMod p × ZMod p :=
  let s := addFormula u.1.2.1 u.1.2.2.1 (coordX u.2) (coordY u.2)
  ((u.1.2.2.2 * (coordX u.2 - s.1)) + s.1, (u.1.2.2.2 * (coordY u.2 - s.2.1)) + s.2.1)

theorem spec_toPointMany {X Y I : PartyID → List (Share (ZMod p))}
    {vs : List (Pt a b × ZMod p × ZMod p × ZMod p)} (hw : modBits p + 2 ≤ w)
    (hX : IsShares X (vs.map fun v => v.2.1)) (hY : IsShares Y (vs.map fun v => v.2.2.1))
    (hI : IsShares I (vs.map fun v => v.2.2.2))
    (hP : ∀ v ∈ vs, (v.2.2.2 = 0 ∧ HasCoords v.1 v.2.1 v.2.2.1) ∨ (v.2.2.2 = 1 ∧ v.1 = 0))
    (hK : ∀ u ∈ vs.zip (blindPoints a b vs.length st), u.2 ≠ 0 ∧ coordX u.2 ≠ u.1.2.1)
    (hst : Corr ty st) :
    SpecE (M := M) (fun i => fieldsharesToPointshareMany w (X i) (Y i) (I i)) st
      (AllOrNone (Spec (M := M) (fun i => pointMaskMany (a := a) (b := b) (X i).length >>= fun m =>
            diffOrOneMany w (X i) m.1.1) st
          (fun _ s => 0 ∈ randValues (ZMod p) vs.length s))
        (fun r st' => IsShares r (vs.map Prod.fst) ∧ Corr ty st')) := by
  have hXl : ∀ i, (X i).length = vs.length := fun i => by rw [Cols.length hX i, List.length_map]
  have hIl : ∀ i, (I i).length = vs.length := fun i => by rw [Cols.length hI i, List.length_map]
  simp only [fieldsharesToPointshareMany, hXl, hIl]
  obtain ⟨m, s1, ⟨h1, h2, h3, hst1⟩, hrun⟩ :=
    (spec_pointMaskMany (M := M) (a := a) (b := b) vs.length hst).exact
  refine SpecE.bind hrun ?_
  rintro v s ⟨hv, hs⟩
  rw [hv, hs]
  obtain ⟨us, hus⟩ : ∃ us, us = vs.zip (blindPoints a b vs.length st) := ⟨_, rfl⟩
  have hul : us.length = vs.length := by rw [hus]; simp
  have hf : us.map Prod.fst = vs := by rw [hus, List.map_fst_zip]; simp
  have hs : us.map Prod.snd = blindPoints a b vs.length st := by rw [hus, List.map_snd_zip]; simp
  rw [← hus] at hK
  rw [← hf] at hX hY hI
  rw [← hs] at h1 h2 h3
  simp only [List.map_map, Function.comp_def] at hX hY hI h1 h2
  have hPu : ∀ u ∈ us, (u.1.2.2.2 = 0 ∧ HasCoords u.1.1 u.1.2.1 u.1.2.2.1) ∨
      (u.1.2.2.2 = 1 ∧ u.1.1 = 0) := fun u hu =>
    hP u.1 (by rw [← hf]; exact List.mem_map_of_mem hu)
  refine SpecE.bindAll (spec_pointAdditionMany
    (vs := us.map fun u => ((u.1.2.1, u.1.2.2.1), (coordX u.2, coordY u.2))) hw
    (by simpa [List.map_map, Function.comp_def] using hX) (by simpa [List.map_map, Function.comp_def] using hY)
    (by simpa [List.map_map, Function.comp_def] using h1) (by simpa [List.map_map, Function.comp_def] using h2)
    hst1) ?_ ?_
  · rintro z st2 ⟨hz1, hz2, hz3, hst2⟩
    simp only [List.map_map, Function.comp_def] at hz1 hz2 hz3
    refine SpecE.mono (Spec.specE (Q := fun r st' => IsShares r (vs.map Prod.fst) ∧ Corr ty st') ?_)
      (fun r h => Or.inr h)
    have hd1 := isShares_sub h1 hz1
    have hd2 := isShares_sub h2 hz2
    simp only [zipWith_maps] at hd1 hd2
    refine Spec.bind (spec_mulVec (Cols.append hI hI) (Cols.append hd1 hd2) hst2) ?_
    rintro c st3 ⟨hc, hst3⟩
    rw [List.zipWith_append (by simp), zipWith_maps, zipWith_maps] at hc
    have hc1 := Cols.take hc vs.length
    have hc2 := Cols.drop hc vs.length
    rw [List.take_left' (by simp [hul])] at hc1
    rw [List.drop_left' (by simp [hul])] at hc2
    have ho1 := isShares_add hc1 hz1
    have ho2 := isShares_add hc2 hz2
    simp only [zipWith_maps] at ho1 ho2
    refine Spec.bind (spec_stateId hst3) ?_
    rintro id3 st3' ⟨hid3, hs3⟩
    rw [hid3, hs3]
    have hz3' : IsShares (fun i => (z i).2.2) (us.map fun _ => 0) := by
      convert hz3 using 1
      refine List.map_congr_left fun u hu => ?_
      simp [addFormula, Ne.symm (hK u hu).2]
    have hT : ∀ u ∈ us, HasCoords (u.1.1 + u.2) (openedCoords u).1 (openedCoords u).2 := by
      intro u hu
      rcases hPu u hu with ⟨hi, hP⟩ | ⟨hi, hP⟩
      · simpa [openedCoords, hi] using (addFormula_blind (hK u hu).1 hP (hK u hu).2).1
      · obtain ⟨kx, ky, hk, -⟩ := exists_coords (hK u hu).1
        simpa [openedCoords, hi, hP, hk.coord.1, hk.coord.2] using hk
    have := spec_pointOpenMany (M := M) (st := st3) hT ho1 ho2 hz3' (fun i => (m i).2)
    rw [hul] at this
    refine this.mono ?_
    rintro r st4 ⟨rfl, rfl⟩
    refine ⟨?_, hst3⟩
    obtain ⟨l, hl, hlr⟩ := h3
    have hl' : ∀ i, (m i).2 = l.map (· i) := fun i => congrFun hl i
    rw [List.forall₂_map_right_iff] at hlr
    have hlen := hlr.length_eq
    simp only [hl']
    refine ⟨List.zipWith (fun q (u : (Pt a b × ZMod p × ZMod p × ZMod p) × Pt a b) =>
      (three ⟨u.1.1 + u.2, (q ID0).b⟩ ⟨(q ID1).a, u.1.1 + u.2⟩ (q ID2) : PartyID → Share (Pt a b))) l us, ?_, ?_⟩
    · funext i
      rw [List.map_zipWith]
      cases i
      · simp [List.zipWith_map]
      · simp [List.zipWith_map]
      · simp only [three_2]
        clear * - hlen
        induction l generalizing us with
        | nil => rfl
        | cons q l ih =>
          cases us with
          | nil => simp at hlen
          | cons u us => simpa using ih us (by simpa using hlen)
    · rw [← hf, List.map_map]
      clear this hl hl' hlen
      clear * - hlr
      induction hlr with
      | nil => exact .nil
      | @cons q u _ _ h _ ih =>
        obtain ⟨K2, K3, hKK, e0, e1, e2⟩ := h
        refine .cons ?_ ih
        rw [isShare_iff]
        simp only [three_0, three_1, three_2, e0, e1, e2]
        refine ⟨⟨trivial, trivial, trivial⟩, ?_⟩
        simp only [Function.comp]
        rw [← hKK]; abel
  · rintro e hbad
    refine Or.inl ⟨e, fun _ => rfl, Spec.bind hrun ?_⟩
    rintro _ _ ⟨rfl, rfl⟩
    simpa [hul] using hbad

end Many

end Verif.Rep3.Curve
