import Verif.CoNoir.AcvmSim
import Verif.CircomVm.VmRel
import Verif.Ring.LutLemmas
import Verif.Ring.LutSharedLemmas

/-!
# The Rep3 driver of the solver corresponds to the plain one
-/

namespace Verif.Acvm

open Rep3 PartyID
open CircomVm (VmVal MonadRel RelW bind_ok ok_inj rep3Rel rep3Rel_first Rep3Val toShare specE_ok)

variable {R M J : Type} {p w : Nat} {ty : A2BType} {bad : Prop} [Fact p.Prime]

/-- A sharing of an index below `2 ^ n` with sharings of the bits of its one-hot vector. -/
def IsOhv {k : Nat} (n : Nat) (r : PartyID → Share (BitVec k) × List (Share (BitVec 1))) : Prop :=
  ∃ u : BitVec k, u.toNat < 2 ^ n ∧ (∀ i, (r i).1.a.toNat < 2 ^ n ∧ (r i).1.b.toNat < 2 ^ n) ∧
    IsBShare (fun i => (r i).1) u ∧ IsBShares (fun i => (r i).2) (Ring.hot n u.toNat)

/-- Tables of the parties that represent `ls`. -/
def TableR (lut : PartyID → Lut.Table (ZMod p)) (ls : List (ZMod p)) : Prop :=
  Lut.IsTable lut ls ∧ 3 ≤ ls.length ∧ ls.length ≤ 2 ^ 32

theorem isVal_pub {ι A : Type} {Sh : (ι → A) → ZMod p → Prop} {v u : ZMod p} (h : v = u) :
    IsVal Sh (fun _ : ι => VmVal.pub v) u := h ▸ .inl rfl

theorem isVal_arith {ι A : Type} {Sh : (ι → A) → ZMod p → Prop} {s : ι → A} {v u : ZMod p} (hs : Sh s v) (h : v = u) :
    IsVal Sh (fun i => VmVal.arith (s i)) u := h ▸ .inr ⟨s, rfl, hs⟩

/-- An operation of a party that uses its number only. -/
theorem rel_withId {α β : Type} {Q : (PartyID → α) → β → Prop} {f : PartyID → PartyID → α} {b : β}
    (h : Q (fun i => f i i) b) : (rep3Rel R M J ty bad).Rel Q (fun i => MPC₂.first (withId (f i))) (.ok b) := by
  refine rep3Rel_first fun b' hb st hst => ?_
  obtain rfl := ok_inj.mp hb
  refine Spec.bind (spec_stateId hst) ?_
  rintro _ s ⟨rfl, rfl⟩
  exact Spec.pure ⟨h, hst⟩

section Local

variable {x y : PartyID → Rep3Val p} {v u : ZMod p}

theorem isVal_addPublic (c : ZMod p) (hx : IsVal IsShare x v) : IsVal IsShare (fun i => rep3AddPublic i c (x i)) (v + c) := by
  rcases hx with rfl | ⟨s, rfl, hs⟩
  · exact isVal_pub (add_comm _ _)
  · exact isVal_arith (hs.addPublic c) rfl

theorem isVal_addAssign (hx : IsVal IsShare x v) (hy : IsVal IsShare y u) :
    IsVal IsShare (fun i => rep3AddAssign i (x i) (y i)) (v + u) := by
  rcases hx with rfl | ⟨s, rfl, hs⟩ <;> rcases hy with rfl | ⟨t, rfl, ht⟩
  · exact isVal_pub rfl
  · exact isVal_arith (ht.addPublic v) (add_comm _ _)
  · exact isVal_arith (hs.addPublic u) rfl
  · exact isVal_arith (hs.add ht) rfl

theorem isVal_mulPublic (c : ZMod p) (hx : IsVal IsShare x v) : IsVal IsShare (fun i => rep3MulPublic c (x i)) (v * c) := by
  rcases hx with rfl | ⟨s, rfl, hs⟩
  · exact isVal_pub (mul_comm _ _)
  · exact isVal_arith (hs.scale c) rfl

theorem isVal_linearTerm (q : ZMod p) (hx : IsVal IsShare x v) (hy : IsVal IsShare y u) :
    IsVal IsShare (fun i => rep3LinearTerm i q (x i) (y i)) (u + q * v) := by
  rcases hx with rfl | ⟨s, rfl, hs⟩ <;> rcases hy with rfl | ⟨t, rfl, ht⟩
  · exact isVal_pub (add_comm _ _)
  · exact isVal_arith (ht.addPublic (q * v)) rfl
  · exact isVal_arith ((hs.scale q).addPublic u) (by ring)
  · exact isVal_arith ((hs.scale q).add ht) (by ring)

/-- The shares of possibly public values. -/
theorem cols_toShare {xs : PartyID → List (Rep3Val p)} {vs : List (ZMod p)} (h : Cols (IsVal IsShare) xs vs) :
    IsShares (fun i => (xs i).map (toShare i)) vs := by
  have := Cols.map (Q := IsShare) (f := fun i => toShare (p := p) i) (g := id) h ?_
  · rwa [List.map_id] at this
  · rintro x v (rfl | ⟨s, rfl, hs⟩)
    · exact IsShare.promote v
    · exact hs

theorem any_isArith {xs : PartyID → List (Rep3Val p)} {vs : List (ZMod p)} (h : Cols (IsVal IsShare) xs vs) :
    (∀ i, (xs i).any VmVal.isArith = true) ∨
      ((∀ i, (xs i).any VmVal.isArith = false) ∧ ∀ i, (xs i).filterMap valPublic = vs) := by
  obtain ⟨l, rfl, hl⟩ := h
  induction hl with
  | nil => exact .inr ⟨fun _ => rfl, fun _ => rfl⟩
  | cons h _ ih =>
    rcases h with rfl | ⟨s, rfl, hs⟩
    · rcases ih with ih | ⟨ih, ih'⟩
      · exact .inl fun i => by simpa [VmVal.isArith] using ih i
      · refine .inr ⟨fun i => by simpa [VmVal.isArith] using ih i, fun i => ?_⟩
        have := ih' i
        simp only [List.map_cons, List.filterMap_cons, valPublic, this]
    · exact .inl fun i => by simp [VmVal.isArith]

theorem tableR_init {xs : PartyID → List (Rep3Val p)} {vs : List (ZMod p)} (hl : 3 ≤ vs.length ∧ vs.length ≤ 2 ^ 32)
    (h : Cols (IsVal IsShare) xs vs) : TableR (fun i => rep3InitLut i (xs i)) vs := by
  refine ⟨?_, hl⟩
  unfold rep3InitLut
  rcases any_isArith h with h1 | ⟨h1, h2⟩
  · simp only [h1, if_true]
    exact .inr ⟨_, rfl, cols_toShare h⟩
  · simp only [h1, h2, Bool.false_eq_true, if_false]
    exact .inl rfl

end Local

/-! ### Products and equations -/

section Comm

variable [Sample R (ZMod p)] [Codec M (List (ZMod p))] {x y : PartyID → Rep3Val p} {v u : ZMod p}

theorem rel_mulTerm (c : ZMod p) (hx : IsVal IsShare x v) (hy : IsVal IsShare y u) :
    (rep3Rel R M J ty bad).Rel (IsVal IsShare) (fun i => MPC₂.first (rep3MulTerm c (x i) (y i))) (.ok (c * v * u)) := by
  refine rep3Rel_first fun b hb st hst => ?_
  obtain rfl := ok_inj.mp hb
  rcases hx with rfl | ⟨s, rfl, hs⟩ <;> rcases hy with rfl | ⟨t, rfl, ht⟩
  · exact Spec.pure ⟨isVal_pub (by ring), hst⟩
  · exact Spec.pure ⟨isVal_arith ((ht.scale v).scale c) (by ring), hst⟩
  · exact Spec.pure ⟨isVal_arith ((hs.scale u).scale c) (by ring), hst⟩
  · refine Spec.bind (spec_mul hs ht hst) ?_
    rintro r st' ⟨hr, hst'⟩
    exact Spec.pure ⟨isVal_arith (hr.scale c) (by ring), hst'⟩

/-- A division that can fail for all parties. -/
theorem rel_div {q : PartyID → Rep3M R M (Share (ZMod p))} {st : PartyID → Rep3State R} {bad' : Prop} {z b : ZMod p}
    (hb : bad) (hz : z = b) (h : SpecE q st (AllOrNone bad' (fun r st' => ¬ bad' ∧ IsShare r z ∧ Corr ty st'))) :
    SpecE (fun i => q i >>= fun r => Pure.pure (VmVal.arith r : Rep3Val p)) st
      (AllOrNone bad (fun r st' => IsVal IsShare r b ∧ Corr ty st')) := by
  refine SpecE.bindAll h ?_ (fun e _ => Or.inl ⟨e, fun _ => rfl, hb⟩)
  rintro r st' ⟨-, hr, hst'⟩
  exact SpecE.pure (Or.inr ⟨_, st', fun _ => rfl, isVal_arith hr hz, hst'⟩)

theorem rel_equation (hb : bad ∨ x = fun _ => .pub v) (hx : IsVal IsShare x v) (hy : IsVal IsShare y u) :
    (rep3Rel R M J ty bad).Rel (IsVal IsShare) (fun i => MPC₂.first (rep3Equation (x i) (y i))) (plainSolveEquation v u) := by
  intro b hb' st₀ st₁ h₀ h₁
  unfold plainSolveEquation at hb'
  split_ifs at hb' with hv
  obtain rfl := ok_inj.mp hb'
  refine Spec₂F.first ?_
  suffices h : SpecE (fun i => rep3Equation (R := R) (M := M) (x i) (y i)) st₀
      (AllOrNone bad (fun r st' => IsVal IsShare r (-u / v) ∧ Corr ty st')) by
    refine h.mono fun r hr => ?_
    rcases hr with hr | ⟨a, s, h1, h2, h3⟩
    · exact .inl hr
    · exact .inr ⟨a, s, h1, h2, h3, h₁⟩
  rcases hx with rfl | ⟨s, rfl, hs⟩
  · rcases hy with rfl | ⟨t, rfl, ht⟩
    · unfold rep3Equation plainSolveEquation
      simp only [if_neg hv, pubOr]
      exact specE_ok (Spec.pure ⟨isVal_pub rfl, h₀⟩)
    · unfold rep3Equation Rep3.divSharedByPublic
      simp only [if_neg hv, arithOr]
      exact specE_ok (Spec.pure ⟨isVal_arith (ht.neg.scale v⁻¹) (by rw [div_eq_mul_inv]), h₀⟩)
  · have hbad : bad := hb.resolve_right fun h => by
      have := congrFun h ID0
      cases this
    rcases hy with rfl | ⟨t, rfl, ht⟩
    · exact rel_div hbad rfl (spec_divPublicByShared hs h₀)
    · exact rel_div hbad rfl (spec_div ht.neg hs h₀)

theorem rel_openMany {a : PartyID → List (Share (ZMod p))} {vs o : List (ZMod p)} (h : Cols IsShare a vs) :
    (rep3Rel R M J ty bad).Rel (fun a _ => a = fun _ => vs) (fun i => MPC₂.first (openVec (a i))) (.ok o) := by
  refine rep3Rel_first fun b hb st hst => ?_
  refine (spec_openVec h).mono ?_
  rintro r s ⟨rfl, rfl⟩
  exact ⟨rfl, hst⟩

end Comm

/-! ### Tables -/

section Tables

theorem indexVec_some {α β : Type} {f : α → β} {i : ZMod p} {vec : List α} {v : α} (hi : i.val < 2 ^ 64)
    (hv : vec[i.val]? = some v) : indexVec (R := R) (M := M) f i vec = Pure.pure (f v) := by
  unfold indexVec Lut.fieldToUsize
  rw [if_pos hi]
  simp only [hv]

theorem setVec_some {α β : Type} {f : List α → β} {i : ZMod p} {vec : List α} {v : α} (hi : i.val < 2 ^ 64)
    (hv : i.val < vec.length) : setVec (R := R) (M := M) f i v vec = Pure.pure (f (vec.set i.val v)) := by
  unfold setVec Lut.fieldToUsize
  rw [if_pos hi]
  simp only [if_pos hv]

theorem isShares_set {l : PartyID → List (Share (ZMod p))} {vs : List (ZMod p)} (h : IsShares l vs) {s : PartyID → Share (ZMod p)}
    {v : ZMod p} (hs : IsShare s v) (k : Nat) : IsShares (fun i => (l i).set k (s i)) (vs.set k v) := by
  obtain ⟨l, rfl, hl⟩ := h
  refine ⟨l.set k s, ?_, ?_⟩
  · funext i; simp [List.map_set]
  · induction hl generalizing k with
    | nil => exact .nil
    | cons h hl ih => cases k with
      | zero => exact .cons hs hl
      | succ k => exact .cons h (ih k)

theorem isShares_promote (vs : List (ZMod p)) : IsShares (fun i => vs.map (promoteToTrivialShare i)) vs := by
  refine ⟨vs.map fun v i => promoteToTrivialShare i v, by funext i; simp [Function.comp_def], ?_⟩
  rw [List.forall₂_map_left_iff]
  exact List.forall₂_same.mpr fun v _ => IsShare.promote v

variable [Sample R (ZMod p)] [Codec M (List (ZMod p))] [∀ w, Sample R (BitVec w)] [∀ w, UintCodec M w] [Yao.YaoRng R]
  [Yao.YaoNet M] [∀ t, Codec J (Share (BitVec t) × List (Share (BitVec 1)))]
  (hw : modBits p + 2 ≤ w) (ho : ty = .yao → p % 2 = 1) (hH : ty = .yao → Yao.HashSeparates (Yao.YaoNet.hash M))

include hw ho hH in
/-- Reading a public table at a secret position, with both networks. -/
theorem spec_publicLutRead {lut : List (ZMod p)} (hn : 3 ≤ lut.length) (hn' : lut.length ≤ 2 ^ 32)
    {index : PartyID → Share (ZMod p)} {x : ZMod p} (hx : IsShare index x) {st₀ st₁ : PartyID → Rep3State R}
    (h₀ : Corr ty st₀) (h₁ : Corr ty st₁) :
    Spec₂F bad (fun i => publicLutRead (M := M) (J := J) w (index i) lut) st₀ st₁ fun r s₀ s₁ =>
      IsShare r (lut.getD (x.val % 2 ^ Lut.makeEven (Nat.clog 2 lut.length)) 0) ∧ Corr ty s₀ ∧ Corr ty s₁ := by
  have hk : Nat.clog 2 lut.length ≤ 32 := Lut.clog_le_of_le hn'
  have h2 := Lut.two_le_clog hn
  have hkt := Lut.makeEven_le_lutWidth h2 hk
  have hle := Lut.le_makeEven (Nat.clog 2 lut.length)
  refine Spec₂F.bind (Q₁ := fun a s₀ s₁ => (∃ v, IsBShare a v ∧ v.toNat = x.val % 2 ^ Lut.lutWidth (Nat.clog 2 lut.length)) ∧
    Corr ty s₀ ∧ Corr ty s₁) (Spec₂F.first (specE_ok ?_)) ?_
  · refine Spec.bind (Lut.spec_castIndex hk hw ho hx h₀) ?_
    rintro a s₀ ⟨hv, hs₀⟩
    refine Spec.bind (Lut.spec_assert (by simpa using hkt)) ?_
    rintro _ _ rfl
    exact Spec.pure ⟨hv, hs₀, h₁⟩
  · rintro a s₀ s₁ ⟨⟨v, hv, hvx⟩, hs₀, hs₁⟩
    refine Spec₂F.bind (Q₁ := fun (r : PartyID → (Share (BitVec (Lut.lutWidth (Nat.clog 2 lut.length))) × List (Share (BitVec 1))) ×
        (Share (BitVec (Lut.lutWidth (Nat.clog 2 lut.length))) × List (Share (BitVec 1)))) s₀ s₁ =>
        IsOhv (Lut.makeEven (Nat.clog 2 lut.length) / 2) (fun i => (r i).1) ∧
          IsOhv (Lut.makeEven (Nat.clog 2 lut.length) / 2) (fun i => (r i).2) ∧ Corr ty s₀ ∧ Corr ty s₁)
      (Spec₂.join ?_).specF ?_
    · refine (Ring.spec_randOhv (Lut.makeEven (Nat.clog 2 lut.length) / 2) (by omega) (by omega) hs₀).mono ?_
      rintro y s₀ ⟨hy, hs₀⟩
      refine (Ring.spec_randOhv (Lut.makeEven (Nat.clog 2 lut.length) / 2) (by omega) (by omega) hs₁).mono ?_
      rintro y' s₁ ⟨hy', hs₁⟩
      exact ⟨hy, hy', hs₀, hs₁⟩
    · rintro r s₀ s₁ ⟨hy, hy', hs₀, hs₁⟩
      refine Spec₂F.first (specE_ok ?_)
      refine Spec.bind (Lut.spec_lowDepthPost hkt (by have := Lut.lutWidth_le (Nat.clog 2 lut.length); omega) hv hy hy' hs₀) ?_
      rintro b s₀ ⟨hb, hs₀⟩
      refine Spec.bind spec_reshare ?_
      rintro b' _ ⟨rfl, rfl⟩
      refine (Lut.spec_b2aRead hw ho hH hb hs₀).mono ?_
      rintro r s ⟨hr, hs⟩
      rw [hvx, Lut.mod_mod_pow hkt] at hr
      exact ⟨hr, hs, hs₁⟩

include hw ho hH in
theorem rel_readLut {x : PartyID → Rep3Val p} {v : ZMod p} {l : PartyID → Lut.Table (ZMod p)} {vs : List (ZMod p)}
    (hx : IsVal IsShare x v) (hl : TableR l vs) :
    (rep3Rel R M J ty bad).Rel (IsVal IsShare) (fun i => rep3ReadLut w (x i) (l i)) (Lut.plainGet v vs) := by
  intro b hb st₀ st₁ h₀ h₁
  obtain ⟨hv, hb⟩ := plainGet_ok.mp hb
  obtain ⟨hl, hn, hn'⟩ := hl
  have hlt : v.val < vs.length := (List.getElem?_eq_some_iff.mp hb).1
  have hget : ∀ k, v.val < 2 ^ k → vs.getD (v.val % 2 ^ k) 0 = b := by
    intro k hk
    rw [Nat.mod_eq_of_lt hk, List.getD_eq_getElem?_getD, hb]
    rfl
  have hc : v.val < 2 ^ Nat.clog 2 vs.length := lt_of_lt_of_le hlt (Nat.le_pow_clog (by norm_num) _)
  have hc' : v.val < 2 ^ Lut.makeEven (Nat.clog 2 vs.length) :=
    lt_of_lt_of_le hc (Nat.pow_le_pow_right (by norm_num) (Lut.le_makeEven _))
  rcases hx with rfl | ⟨s, rfl, hs⟩ <;> rcases hl with rfl | ⟨t, rfl, ht⟩
  · simp only [rep3ReadLut, indexVec_some hv hb]
    exact Spec₂F.first (specE_ok (Spec.pure ⟨isVal_pub rfl, h₀, h₁⟩))
  · obtain ⟨y, hy, hys⟩ := Cols.get ht hb
    simp only [rep3ReadLut, indexVec_some hv (hy _)]
    exact Spec₂F.first (specE_ok (Spec.pure ⟨isVal_arith hys rfl, h₀, h₁⟩))
  · refine Spec₂F.bind (spec_publicLutRead (lut := vs) hw ho hH hn hn' hs h₀ h₁) ?_
    rintro r s₀ s₁ ⟨hr, hs₀, hs₁⟩
    exact Spec₂F.pure ⟨isVal_arith hr (hget _ hc'), hs₀, hs₁⟩
  · refine Spec₂F.bind (Q₁ := fun r s₀ s₁ => IsShare r (vs.getD (v.val % 2 ^ Nat.clog 2 vs.length) 0) ∧ Corr ty s₀ ∧ Corr ty s₁)
      (Spec₂F.first (specE_ok ((Lut.spec_getFromSharedLut ht (by omega) hn' hw ho hs h₀).mono
      fun r s₀ hr => ⟨hr.1, hr.2, h₁⟩))) ?_
    rintro r s₀ s₁ ⟨hr, hs₀, hs₁⟩
    exact Spec₂F.pure ⟨isVal_arith hr (hget _ hc), hs₀, hs₁⟩

include hw ho in
theorem rel_writeLut {x y : PartyID → Rep3Val p} {v u : ZMod p} {l : PartyID → Lut.Table (ZMod p)} {vs : List (ZMod p)}
    (hx : IsVal IsShare x v) (hy : IsVal IsShare y u) (hl : TableR l vs) :
    (rep3Rel R M J ty bad).Rel TableR (fun i => MPC₂.first (rep3WriteLut w (l i) (x i) (y i))) (Lut.plainWrite v u vs) := by
  refine rep3Rel_first fun b hb st hst => ?_
  obtain ⟨hv, hlt, rfl⟩ := plainWrite_ok.mp hb
  obtain ⟨hl, hn, hn'⟩ := hl
  have hlen : 3 ≤ (vs.set v.val u).length ∧ (vs.set v.val u).length ≤ 2 ^ 32 := by simpa using ⟨hn, hn'⟩
  have hc : v.val % 2 ^ Nat.clog 2 vs.length = v.val :=
    Nat.mod_eq_of_lt (lt_of_lt_of_le hlt (Nat.le_pow_clog (by norm_num) _))
  rcases hx with rfl | ⟨s, rfl, hs⟩
  · rcases hy with rfl | ⟨t, rfl, ht⟩
    · rcases hl with rfl | ⟨l, rfl, hl⟩
      · simp only [rep3WriteLut, setVec_some hv hlt]
        exact Spec.pure ⟨⟨.inl rfl, hlen⟩, hst⟩
      · simp only [rep3WriteLut]
        refine Spec.bind (spec_stateId hst) ?_
        rintro _ s ⟨rfl, rfl⟩
        have : ∀ i, v.val < (l i).length := fun i => by rw [Cols.length hl i]; exact hlt
        simp only [setVec_some hv (this _)]
        exact Spec.pure ⟨⟨.inr ⟨_, rfl, isShares_set hl (IsShare.promote u) _⟩, hlen⟩, hst⟩
    · rcases hl with rfl | ⟨l, rfl, hl⟩
      · simp only [rep3WriteLut]
        refine Spec.bind (spec_stateId hst) ?_
        rintro _ s ⟨rfl, rfl⟩
        have : ∀ i : PartyID, v.val < (vs.map (promoteToTrivialShare i)).length := fun i => by simpa using hlt
        simp only [setVec_some hv (this _)]
        exact Spec.pure ⟨⟨.inr ⟨_, rfl, isShares_set (isShares_promote vs) ht _⟩, hlen⟩, hst⟩
      · have : ∀ i, v.val < (l i).length := fun i => by rw [Cols.length hl i]; exact hlt
        simp only [rep3WriteLut, setVec_some hv (this _)]
        exact Spec.pure ⟨⟨.inr ⟨_, rfl, isShares_set hl ht _⟩, hlen⟩, hst⟩
  · rcases hy with rfl | ⟨t, rfl, ht⟩
    · simp only [rep3WriteLut]
      refine Spec.bind (spec_stateId hst) ?_
      rintro _ s' ⟨rfl, rfl⟩
      refine (Lut.spec_writeToLut (value := fun i => promoteToTrivialShare i u) IsShare.promote hl (by omega) hn' hw ho hs
        (IsShare.promote u) hst).mono ?_
      rintro r s' ⟨⟨l', rfl, hl'⟩, hs'⟩
      rw [hc] at hl'
      exact ⟨⟨.inr ⟨l', rfl, hl'⟩, hlen⟩, hs'⟩
    · simp only [rep3WriteLut]
      refine (Lut.spec_writeToLut IsShare.promote hl (by omega) hn' hw ho hs ht hst).mono ?_
      rintro r s' ⟨⟨l', rfl, hl'⟩, hs'⟩
      rw [hc] at hl'
      exact ⟨⟨.inr ⟨l', rfl, hl'⟩, hlen⟩, hs'⟩

end Tables

/-! ### Bit operations -/

section Logic

theorem and_mask_toNat {a b : Nat} (ha : a < 2 ^ w) : a &&& ((2 ^ b - 1) % 2 ^ w) = a &&& (1 <<< b - 1) := by
  rw [Nat.one_shiftLeft, ← Nat.and_two_pow_sub_one_eq_mod (2 ^ b - 1) w, Nat.and_comm (2 ^ b - 1), ← Nat.and_assoc,
    Nat.and_two_pow_sub_one_eq_mod a w, Nat.mod_eq_of_lt ha]

variable [Sample R (ZMod p)] [Codec M (List (ZMod p))] [∀ w, Sample R (BitVec w)] [∀ w, UintCodec M w] [Yao.YaoRng R]
  [Yao.YaoNet M] [Codec J (Share (BitVec w))]
  (hw : modBits p + 2 ≤ w) (ho : ty = .yao → p % 2 = 1) (hH : ty = .yao → Yao.HashSeparates (Yao.YaoNet.hash M))

include hw in
theorem masked_toNat (f : Nat → Nat → Nat) (g : BitVec w → BitVec w → BitVec w) (hg : ∀ a b, (g a b).toNat = f a.toNat b.toNat)
    (v u : ZMod p) (bits : Nat) :
    ((g (Uint.ofField w v) (Uint.ofField w u)) &&& Uint.mask w bits).toNat = f v.val u.val &&& (1 <<< bits - 1) := by
  rw [BitVec.toNat_and, Uint.mask, BitVec.toNat_ofNat, and_mask_toNat (BitVec.isLt _), hg, ofField_toNat (by omega),
    ofField_toNat (by omega)]

include hw ho hH in
theorem spec_logicPublic {f : PartyID → Share (BitVec w) → Share (BitVec w)} {g : BitVec w → BitVec w} {k : Nat} {v : ZMod p}
    (hf : ∀ {q : PartyID → Share (BitVec w)} {v}, IsBShare q v → IsBShare (fun i => f i (q i)) (g v))
    (hk : (g (Uint.ofField w v)).toNat = k) (hlt : k < p) {s : PartyID → Share (ZMod p)} (hs : IsShare s v)
    {st : PartyID → Rep3State R} (hst : Corr ty st) :
    Spec (M := M) (fun i => logicPublic w f (s i)) st (fun r st' => IsVal IsShare r (k : ZMod p) ∧ Corr ty st') := by
  refine Spec.bind (spec_a2bSelector hw ho hs hst) ?_
  rintro q st₁ ⟨hq, hst₁⟩
  refine Spec.bind (spec_stateId hst₁) ?_
  rintro _ s ⟨rfl, rfl⟩
  refine Spec.bind (spec_b2aSelector (p := p) hw ho hH (hf hq) (by rw [hk]; exact hlt) hst₁) ?_
  rintro r s ⟨hr, hs⟩
  exact Spec.pure ⟨isVal_arith hr (by rw [hk]), hs⟩

include hw ho hH in
theorem spec_logicShared {f : Share (BitVec w) → Share (BitVec w) → Rep3M R M (Share (BitVec w))}
    {g : BitVec w → BitVec w → BitVec w} {mask : BitVec w} {k : Nat} {v v' : ZMod p}
    (hf : ∀ {q q' : PartyID → Share (BitVec w)} {v v' st}, IsBShare q v → IsBShare q' v' → Corr ty st →
      Spec (fun i => f (q i) (q' i)) st (fun r st' => IsBShare r (g v v') ∧ Corr ty st'))
    (hk : (g (Uint.ofField w v) (Uint.ofField w v') &&& mask).toNat = k) (hlt : k < p)
    {s t : PartyID → Share (ZMod p)} (hs : IsShare s v) (ht : IsShare t v') {st₀ st₁ : PartyID → Rep3State R}
    (h₀ : Corr ty st₀) (h₁ : Corr ty st₁) :
    Spec₂F bad (fun i => logicShared (J := J) w f mask (s i) (t i)) st₀ st₁ fun r s₀ s₁ =>
      IsVal IsShare r (k : ZMod p) ∧ Corr ty s₀ ∧ Corr ty s₁ := by
  refine Spec₂F.bind (Spec₂.join (Q := fun r s₀ s₁ => IsBShare (fun i => (r i).1) (Uint.ofField w v) ∧
      IsBShare (fun i => (r i).2) (Uint.ofField w v') ∧ Corr ty s₀ ∧ Corr ty s₁) ?_).specF ?_
  · refine (spec_a2bSelector hw ho hs h₀).mono ?_
    rintro q s₀ ⟨hq, hs₀⟩
    refine (spec_a2bSelector hw ho ht h₁).mono ?_
    rintro q' s₁ ⟨hq', hs₁⟩
    exact ⟨hq, hq', hs₀, hs₁⟩
  · rintro r s₀ s₁ ⟨hl, hr, hs₀, hs₁⟩
    refine Spec₂F.first (specE_ok ?_)
    refine Spec.bind (hf hl hr hs₀) ?_
    rintro q st₂ ⟨hq, hst₂⟩
    refine Spec.bind (spec_b2aSelector (p := p) hw ho hH (hq.andMask mask) (by rw [hk]; exact hlt) hst₂) ?_
    rintro z s ⟨hz, hs⟩
    exact Spec.pure ⟨isVal_arith hz (by rw [hk]), hs, hs₁⟩

variable {x y : PartyID → Rep3Val p} {v u : ZMod p}

include hw ho hH in
theorem rel_and (bits : Nat) (hx : IsVal IsShare x v) (hy : IsVal IsShare y u) :
    (rep3Rel R M J ty bad).Rel (IsVal IsShare) (fun i => rep3And w bits (x i) (y i)) (.ok (plainAnd v u bits)) := by
  intro b hb st₀ st₁ h₀ h₁
  obtain rfl := ok_inj.mp hb
  have key := masked_toNat hw (· &&& ·) (· &&& ·) (fun a b => BitVec.toNat_and a b) v u bits
  have key' := masked_toNat hw (· &&& ·) (· &&& ·) (fun a b => BitVec.toNat_and a b) u v bits
  have hlt : (v.val &&& u.val) &&& (1 <<< bits - 1) < p :=
    lt_of_le_of_lt (Nat.and_le_left.trans Nat.and_le_left) (ZMod.val_lt v)
  rcases hx with rfl | ⟨s, rfl, hs⟩ <;> rcases hy with rfl | ⟨t, rfl, ht⟩
  · refine Spec₂F.pure ⟨isVal_pub ?_, h₀, h₁⟩
    simp only [uintToField, key, plainAnd]
  · refine Spec₂F.first (specE_ok ?_)
    refine (spec_logicPublic (f := fun _ y => y.andMask (Uint.ofField w v &&& Uint.mask w bits)) hw ho hH
      (fun h => h.andMask _) ?_ hlt ht h₀).mono fun r s h => ⟨h.1, h.2, h₁⟩
    rw [← BitVec.and_assoc, key', Nat.and_comm u.val]
  · refine Spec₂F.first (specE_ok ?_)
    refine (spec_logicPublic (f := fun _ y => y.andMask (Uint.ofField w u &&& Uint.mask w bits)) hw ho hH
      (fun h => h.andMask _) ?_ hlt hs h₀).mono fun r s h => ⟨h.1, h.2, h₁⟩
    rw [← BitVec.and_assoc, key]
  · exact spec_logicShared (f := Bin.and) hw ho hH (fun h h' hst => Bin.spec_and h h' hst) key hlt hs ht h₀ h₁

include hw ho hH in
theorem rel_xor {bits : Nat} (hbits : 2 ^ bits ≤ p) (hx : IsVal IsShare x v) (hy : IsVal IsShare y u) :
    (rep3Rel R M J ty bad).Rel (IsVal IsShare) (fun i => rep3Xor w bits (x i) (y i)) (.ok (plainXor v u bits)) := by
  intro b hb st₀ st₁ h₀ h₁
  obtain rfl := ok_inj.mp hb
  have key := masked_toNat hw (· ^^^ ·) (· ^^^ ·) (fun a b => BitVec.toNat_xor a b) v u bits
  have key' := masked_toNat hw (· ^^^ ·) (· ^^^ ·) (fun a b => BitVec.toNat_xor a b) u v bits
  have hlt : (v.val ^^^ u.val) &&& (1 <<< bits - 1) < p := by
    refine lt_of_lt_of_le (lt_of_le_of_lt Nat.and_le_right ?_) hbits
    rw [Nat.one_shiftLeft]
    have := Nat.two_pow_pos bits
    omega
  rcases hx with rfl | ⟨s, rfl, hs⟩ <;> rcases hy with rfl | ⟨t, rfl, ht⟩
  · refine Spec₂F.pure ⟨isVal_pub ?_, h₀, h₁⟩
    simp only [uintToField, key, plainXor]
  · refine Spec₂F.first (specE_ok ?_)
    refine (spec_logicPublic (f := fun id y => (Bin.xorPublic y (Uint.ofField w v) id).andMask (Uint.mask w bits)) hw ho hH
      (fun h => (h.xorPublic _).andMask _) ?_ hlt ht h₀).mono fun r s h => ⟨h.1, h.2, h₁⟩
    rw [key', Nat.xor_comm u.val]
  · refine Spec₂F.first (specE_ok ?_)
    refine (spec_logicPublic (f := fun id y => (Bin.xorPublic y (Uint.ofField w u) id).andMask (Uint.mask w bits)) hw ho hH
      (fun h => (h.xorPublic _).andMask _) ?_ hlt hs h₀).mono fun r s h => ⟨h.1, h.2, h₁⟩
    rw [key]
  · exact spec_logicShared (f := fun l r => Pure.pure (l.bxor r)) hw ho hH
      (fun h h' hst => Spec.pure ⟨h.bxor h', hst⟩) key hlt hs ht h₀ h₁

end Logic

/-! ### The driver -/

theorem rep3Rel_error {α β : Type} (Q : (PartyID → α) → β → Prop) (q : PartyID → MPC₂ PartyID (Rep3State R) M J α) (e : Err) :
    (rep3Rel R M J ty bad).Rel Q q (.error e) := by
  intro b hb
  cases hb

theorem rep3_sim [Sample R (ZMod p)] [Codec M (List (ZMod p))] [∀ w, Sample R (BitVec w)] [∀ w, UintCodec M w] [Yao.YaoRng R]
    [Yao.YaoNet M] [Codec J (Share (BitVec w))] [∀ t, Codec J (Share (BitVec t) × List (Share (BitVec 1)))]
    (hw : modBits p + 2 ≤ w) (ho : ty = .yao → p % 2 = 1) (hH : ty = .yao → Yao.HashSeparates (Yao.YaoNet.hash M)) :
    DriverSim (rep3Rel R M J ty bad) (rep3 w) IsShare (TableR (p := p)) (rep3Support p) bad where
  zero := rfl
  ofPub := rfl
  isShared := rfl
  getShared := rfl
  getPublic := rfl
  addAssignWithPublic c x _ hx := rel_withId (f := fun i id => rep3AddPublic id c (x i)) (isVal_addPublic c hx)
  addAssign {x _ y _} hx hy := rel_withId (f := fun i id => rep3AddAssign id (x i) (y i)) (isVal_addAssign hx hy)
  mulWithPublic c _ _ hx := (rep3Rel R M J ty bad).pure (isVal_mulPublic c hx)
  solveMulTerm c _ _ _ _ _ hx hy := rel_mulTerm c hx hy
  solveLinearTerm c x _ y _ hx hy := rel_withId (f := fun i id => rep3LinearTerm id c (x i) (y i)) (isVal_linearTerm c hx hy)
  solveEquation hb hx hy := rel_equation hb hx hy
  initLut {x _} hl hx := rel_withId (f := fun i id => rep3InitLut id (x i)) (tableR_init hl hx)
  readLut hx hl := rel_readLut hw ho hH hx hl
  writeLut hx hy hl := rel_writeLut hw ho hx hy hl
  bitwiseAnd _ hx hy := rel_and hw ho hH _ hx hy
  bitwiseXor hb hx hy := rel_xor hw ho hH hb hx hy
  openMany hx := rel_openMany hx
  fail Q q e := rep3Rel_error Q q e
  result h b hb st₀ st₁ h₀ h₁ := (h b hb st₀ st₁ h₀ h₁).mono fun v s₀ s₁ hv => ⟨⟨hv.1, hb⟩, hv.2⟩

end Verif.Acvm
