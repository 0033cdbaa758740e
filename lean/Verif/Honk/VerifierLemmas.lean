import Verif.Honk.ProverRun

/-! # What the verifier checks -/

namespace Verif.Honk

open Polynomial

variable {F : Type} [Field F] [DecidableEq F]

theorem verifierRound_def {k : Nat} (ch : List (Univariate F (k + 2)) → F) (us : List (Univariate F (k + 2))) (st : VerifierState F (k + 2))
    (g : Univariate F (k + 2)) (hg : us[st.received.length]? = some g) (hb : st.sep.idx < st.sep.betas.length) (v : F)
    (hv : g.evaluate (ch (st.received ++ [g])) = .ok v) :
    verifierRound ch us st 1 = .ok ⟨st.received ++ [g], st.challenges ++ [ch (st.received ++ [g])], v,
      { st.sep with
        partialResult := st.sep.partialResult * (1 + ch (st.received ++ [g]) * (st.sep.betas.getD st.sep.idx 0 - 1))
        idx := st.sep.idx + 1
        periodicity := st.sep.periodicity * 2 },
      st.verified && decide (st.target = g 0 + g 1)⟩ := by
  rw [verifierRound]
  simp only [hg, nextTargetSum, Separator.partiallyEvaluateWithPadding, index_ok _ _ (0 : F) hb, hv, bind, Except.bind, pure, Except.pure, checkSum]
  simp

/-- The state of the verifier after some rounds. -/
structure VInv (betas : List F) (ch : List (Univariate F 8) → F) (us : List (Univariate F 8)) (r : Nat) (st : VerifierState F 8) : Prop where
  le : r ≤ us.length
  received : st.received = us.take r
  chals : st.challenges = (challenges ch us).take r
  sepBetas : st.sep.betas = betas
  idx : st.sep.idx = r
  result : st.sep.partialResult = sepValue betas ((challenges ch us).take r)

omit [DecidableEq F] in
theorem challenges_getD {M : Type} (ch : List M → F) (us : List M) (r : Nat) (hr : r < us.length) :
    (challenges ch us).getD r 0 = ch (us.take (r + 1)) := by
  simp [challenges, List.getD, hr]

theorem take_succ_getD {α : Type} (l : List α) (r : Nat) (d : α) (hr : r < l.length) : l.take (r + 1) = l.take r ++ [l.getD r d] := by
  rw [List.take_succ_eq_append_getElem hr]
  simp [List.getD, List.getElem?_eq_getElem hr]

theorem VInv.step {betas : List F} {ch : List (Univariate F 8) → F} {us : List (Univariate F 8)} {r : Nat} {st : VerifierState F 8}
    (h : VInv betas ch us r st) (hr : r < us.length) (hb : r < betas.length) {v : F}
    (hv : (us.getD r 0).evaluate ((challenges ch us).getD r 0) = .ok v) :
    ∃ st', verifierRound (k := 6) ch us st 1 = .ok st' ∧ VInv betas ch us (r + 1) st' ∧ st'.target = v ∧
      st'.verified = (st.verified && decide (st.target = us.getD r 0 0 + us.getD r 0 1)) := by
  have hlen : st.received.length = r := by rw [h.received, List.length_take]; omega
  have hg : us[st.received.length]? = some (us.getD r 0) := by
    rw [hlen]; simp [List.getD, List.getElem?_eq_getElem hr]
  have htake : st.received ++ [us.getD r 0] = us.take (r + 1) := by rw [h.received, take_succ_getD us r 0 hr]
  have hch : ch (st.received ++ [us.getD r 0]) = (challenges ch us).getD r 0 := by rw [htake, challenges_getD _ _ _ hr]
  have htc : (challenges ch us).take (r + 1) = (challenges ch us).take r ++ [(challenges ch us).getD r 0] :=
    take_succ_getD _ _ _ (by simpa using hr)
  rw [verifierRound_def ch us st _ hg (by rw [h.sepBetas, h.idx]; exact hb) v (by rw [hch]; exact hv)]
  refine ⟨_, rfl, ⟨hr, htake, ?_, h.sepBetas, ?_, ?_⟩, rfl, rfl⟩
  · simp only []
    rw [hch, htc, h.chals]
  · simp [h.idx]
  · simp only []
    have hl : ((challenges ch us).take r).length = r := by rw [List.length_take, challenges_length]; omega
    rw [htc, sepValue_append _ _ _ (by omega), hch, h.result, h.sepBetas, h.idx, hl]

theorem vinv_zero (betas : List F) (ch : List (Univariate F 8) → F) (us : List (Univariate F 8)) (t : F) (b : Bool) :
    VInv betas ch us 0 ⟨[], [], t, Separator.newWithoutProducts betas, b⟩ :=
  ⟨by omega, rfl, rfl, rfl, rfl, by cases betas <;> rfl⟩

omit [DecidableEq F] in
theorem batchFactor_eq (first : F) (elements : List F) : batchFactor first elements = scaleFactor first elements := by
  funext s; cases s <;> rfl

omit [DecidableEq F] in
theorem fullRelationValue_ok (p : Params F) (e : Col → F) (sep : Separator F) (alphas : List F) (ha : alphas.length = 27) :
    fullRelationValue p e sep alphas = .ok (batched (scaleFactor 1 alphas) p sep.partialResult e) := by
  rw [fullRelationValue, if_pos ha, batched]
  congr 2
  refine List.map_congr_left fun s _ => ?_
  rw [evaluation_eq, batchFactor_eq]
  ring

section chain

variable (p : Params F) (alphas betas : List F) (T : Nat → Col → F) (D : Nat)

/-- The sum that is left after the challenges `us`. -/
def sumAt (us : List F) : F :=
  total (scaleFactor 1 alphas) p (D - us.length) (betas.drop us.length) (sepValue betas us) (foldAll us T)

omit [DecidableEq F] in
theorem polyAt_sum (us : List F) (h : us.length < D) (hb : D ≤ betas.length) :
    (polyAt p alphas betas T D us).eval 0 + (polyAt p alphas betas T D us).eval 1 = sumAt p alphas betas T D us := by
  rw [polyAt, roundPoly_sum, sumAt]
  congr 1
  · omega
  · rw [List.drop_eq_getElem_cons (show us.length < betas.length by omega)]
    simp [List.getD, List.getElem?_eq_getElem (show us.length < betas.length by omega)]

omit [DecidableEq F] in
theorem polyAt_eval (us : List F) (u : F) (h : us.length < D) (hb : D ≤ betas.length) :
    (polyAt p alphas betas T D us).eval u = sumAt p alphas betas T D (us ++ [u]) := by
  rw [polyAt, roundPoly_eval, sumAt, foldAll_append, sepValue_append _ _ _ (by omega)]
  simp [Nat.sub_sub]

omit [DecidableEq F] in
theorem sumAt_last (us : List F) (h : us.length = D) :
    sumAt p alphas betas T D us = batched (scaleFactor 1 alphas) p (sepValue betas us) (foldAll us T 0) := by
  rw [sumAt, total, h, Nat.sub_self, pow_zero, Finset.sum_range_one, weight_zero, mul_one]

omit [DecidableEq F] in
theorem polyAt_natDegree (us : List F) : (polyAt p alphas betas T D us).natDegree ≤ 7 := roundPoly_natDegree _ _ _ _ _ _ _

end chain

/-- If the univariates are those of the rounds, the verifier accepts a sum that is zero. -/
theorem verify_complete (p : Params F) (alphas betas : List F) (T : Nat → Col → F) (D : Nat) (hd8 : Distinct F 8) (ha : alphas.length = 27)
    (hb : D ≤ betas.length) (ch : List (Univariate F 8) → F) (proof : SumcheckProof F 8) (hl : proof.univariates.length = D)
    (he : ∀ c, proof.evaluations c = foldAll (challenges ch proof.univariates) T 0 c)
    (hp : ∀ j < D, proof.univariates[j]? = some (Univariate.ofPoly 8 (polyAt p alphas betas T D ((challenges ch proof.univariates).take j))))
    (hc : ∀ u ∈ challenges ch proof.univariates, ∀ i : Nat, 1 ≤ i → i < 8 → u ≠ (i : F))
    (h0 : sumAt p alphas betas T D [] = 0) : sumcheckVerify p alphas betas ch D proof = .ok true := by
  have key : ∀ r ≤ D, ∃ st, (List.replicate r (1 : F)).foldlM (verifierRound (k := 6) ch proof.univariates)
      ⟨[], [], 0, Separator.newWithoutProducts betas, true⟩ = .ok st ∧ VInv betas ch proof.univariates r st ∧
        st.target = sumAt p alphas betas T D ((challenges ch proof.univariates).take r) ∧ st.verified = true := by
    intro r hr
    induction r with
    | zero => exact ⟨_, rfl, vinv_zero _ _ _ _ _, by simp [h0], rfl⟩
    | succ r ih =>
      obtain ⟨st, hs, hi, ht, hv⟩ := ih (by omega)
      have hlc : ((challenges ch proof.univariates).take r).length = r := by rw [List.length_take, challenges_length]; omega
      have hg : proof.univariates.getD r 0 = Univariate.ofPoly 8 (polyAt p alphas betas T D ((challenges ch proof.univariates).take r)) := by
        simp [List.getD, hp r (by omega)]
      have hmem : (challenges ch proof.univariates).getD r 0 ∈ challenges ch proof.univariates := by
        have : r < (challenges ch proof.univariates).length := by rw [challenges_length]; omega
        simp [List.getD, List.getElem?_eq_getElem this]
      have hev : (proof.univariates.getD r 0).evaluate ((challenges ch proof.univariates).getD r 0)
          = .ok ((polyAt p alphas betas T D ((challenges ch proof.univariates).take r)).eval ((challenges ch proof.univariates).getD r 0)) := by
        rw [hg]
        exact Univariate.evaluate_ofPoly (n := 7) hd8 _ (Nat.lt_succ_of_le (polyAt_natDegree _ _ _ _ _ _)) _
          (fun i h1 h2 => hc _ hmem i h1 h2)
      obtain ⟨st', hs', hi', ht', hv'⟩ := hi.step (by omega) (by omega) hev
      refine ⟨st', ?_, hi', ?_, ?_⟩
      · rw [List.replicate_succ', List.foldlM_append, hs]
        show [1].foldlM (verifierRound (k := 6) ch proof.univariates) st = _
        rw [List.foldlM_cons, hs']
        rfl
      · rw [ht', polyAt_eval p alphas betas T D _ _ (by omega) hb, take_succ_getD _ _ 0 (by rw [challenges_length]; omega)]
      · rw [hv', hv, ht, hg, ← polyAt_sum p alphas betas T D _ (by omega) hb]
        simp [Univariate.ofPoly]
  obtain ⟨st, hs, hi, ht, hv⟩ := key D le_rfl
  have hfull : (challenges ch proof.univariates).take D = challenges ch proof.univariates :=
    List.take_of_length_le (by rw [challenges_length]; omega)
  rw [sumcheckVerify, hs]
  simp only [bind, Except.bind]
  rw [fullRelationValue_ok _ _ _ _ ha]
  simp only [pure, Except.pure]
  rw [hv, ht, hi.result, hfull, sumAt_last p alphas betas T D _ (by rw [challenges_length, hl])]
  have : proof.evaluations = foldAll (challenges ch proof.univariates) T 0 := funext he
  simp [this]

/-- The challenges for which a wrong univariate passes. -/
noncomputable def badRound (p : Params F) (alphas betas : List F) (T : Nat → Col → F) (D : Nat) (us : List F) (g : Univariate F 8) : Finset F :=
  (g.toPoly - polyAt p alphas betas T D us).roots.toFinset

theorem badRound_card (p : Params F) (alphas betas : List F) (T : Nat → Col → F) (D : Nat) (hd8 : Distinct F 8) (us : List F)
    (g : Univariate F 8) : (badRound p alphas betas T D us g).card ≤ 7 := by
  refine (Multiset.toFinset_card_le _).trans ((card_roots' _).trans ((natDegree_sub_le _ _).trans (max_le ?_ (polyAt_natDegree _ _ _ _ _ _))))
  exact Nat.le_of_lt_succ (Univariate.toPoly_natDegree hd8 (by omega) g)

theorem verifierRound_inv {betas : List F} {ch : List (Univariate F 8) → F} {us : List (Univariate F 8)} {r : Nat} {st st' : VerifierState F 8}
    (h : VInv betas ch us r st) (hb : r < betas.length) (hs : verifierRound (k := 6) ch us st 1 = .ok st') :
    r < us.length ∧ ∃ v, (us.getD r 0).evaluate ((challenges ch us).getD r 0) = .ok v := by
  have hlen : st.received.length = r := by rw [h.received, List.length_take]; have := h.le; omega
  rw [verifierRound, hlen] at hs
  by_cases hr : r < us.length
  · refine ⟨hr, ?_⟩
    have hg : us[r]? = some (us.getD r 0) := by simp [List.getD, List.getElem?_eq_getElem hr]
    have htake : st.received ++ [us.getD r 0] = us.take (r + 1) := by rw [h.received, take_succ_getD us r 0 hr]
    have hch : ch (st.received ++ [us.getD r 0]) = (challenges ch us).getD r 0 := by rw [htake, challenges_getD _ _ _ hr]
    rw [hg] at hs
    simp only [nextTargetSum, bind, Except.bind, hch] at hs
    cases hv : (us.getD r 0).evaluate ((challenges ch us).getD r 0) with
    | ok v => exact ⟨v, rfl⟩
    | error e => rw [hv] at hs; cases hs
  · rw [List.getElem?_eq_none (by omega)] at hs
    cases hs

/-- If the verifier accepts, the sum is zero or some round was lucky. -/
theorem verify_sound (p : Params F) (alphas betas : List F) (T : Nat → Col → F) (D : Nat) (hd8 : Distinct F 8) (ha : alphas.length = 27)
    (hb : D ≤ betas.length) (ch : List (Univariate F 8) → F) (proof : SumcheckProof F 8)
    (hv : sumcheckVerify p alphas betas ch D proof = .ok true) :
    D ≤ proof.univariates.length ∧
    ((∀ c, proof.evaluations c = foldAll ((challenges ch proof.univariates).take D) T 0 c) →
    sumAt p alphas betas T D [] = 0 ∨
      ∃ j < D, (challenges ch proof.univariates).getD j 0
        ∈ badRound p alphas betas T D ((challenges ch proof.univariates).take j) (proof.univariates.getD j 0)) := by
  have key : ∀ r ≤ D, ∀ st, (List.replicate r (1 : F)).foldlM (verifierRound (k := 6) ch proof.univariates)
      ⟨[], [], 0, Separator.newWithoutProducts betas, true⟩ = .ok st → VInv betas ch proof.univariates r st ∧
        (st.verified = true → sumAt p alphas betas T D [] ≠ 0 →
          (∀ j < D, (challenges ch proof.univariates).getD j 0
            ∉ badRound p alphas betas T D ((challenges ch proof.univariates).take j) (proof.univariates.getD j 0)) →
          st.target ≠ sumAt p alphas betas T D ((challenges ch proof.univariates).take r)) := by
    intro r hr
    induction r with
    | zero =>
      intro st hs
      cases hs
      exact ⟨vinv_zero _ _ _ _ _, fun _ h0 _ h => h0 h.symm⟩
    | succ r ih =>
      intro st' hs'
      rw [List.replicate_succ', List.foldlM_append] at hs'
      cases hs : (List.replicate r (1 : F)).foldlM (verifierRound (k := 6) ch proof.univariates)
          ⟨[], [], 0, Separator.newWithoutProducts betas, true⟩ with
      | error e => rw [hs] at hs'; cases hs'
      | ok st =>
        obtain ⟨hi, hne⟩ := ih (by omega) st hs
        rw [hs] at hs'
        have hs1 : verifierRound (k := 6) ch proof.univariates st 1 = .ok st' := by
          have : [1].foldlM (verifierRound (k := 6) ch proof.univariates) st = .ok st' := hs'
          rw [List.foldlM_cons] at this
          cases h1 : verifierRound (k := 6) ch proof.univariates st 1 with
          | error e => rw [h1] at this; cases this
          | ok s => rw [h1] at this; exact this
        obtain ⟨hrl, v, hev⟩ := verifierRound_inv hi (by omega) hs1
        obtain ⟨st'', hs'', hi', ht', hv'⟩ := hi.step hrl (by omega) hev
        rw [hs1] at hs''
        cases hs''
        refine ⟨hi', fun hver h0 hbad => ?_⟩
        rw [hv', Bool.and_eq_true, decide_eq_true_eq] at hver
        have hne' := hne hver.1 h0 hbad
        have hlc : ((challenges ch proof.univariates).take r).length = r := by rw [List.length_take, challenges_length]; omega
        generalize hgd : proof.univariates.getD r 0 = g at *
        have hval : ∀ i : Fin 8, g i = g.toPoly.eval ((i : Nat) : F) := fun i => (congrFun (Univariate.ofPoly_toPoly hd8 g) i).symm
        have hpoly : g.toPoly ≠ polyAt p alphas betas T D ((challenges ch proof.univariates).take r) := by
          intro he
          apply hne'
          rw [hver.2, ← polyAt_sum p alphas betas T D _ (by omega) hb, ← he, hval 0, hval 1]
          simp
        have hroot := hbad r (by omega)
        rw [hgd, badRound, Multiset.mem_toFinset, mem_roots (sub_ne_zero.2 hpoly), IsRoot.def, eval_sub, sub_eq_zero] at hroot
        rw [ht', Univariate.evaluate_toPoly hd8 g _ v hev, take_succ_getD _ _ 0 (by rw [challenges_length]; omega),
          ← polyAt_eval p alphas betas T D _ _ (by omega) hb]
        exact hroot
  rw [sumcheckVerify] at hv
  cases hs : (List.replicate D (1 : F)).foldlM (verifierRound (k := 6) ch proof.univariates)
      ⟨[], [], 0, Separator.newWithoutProducts betas, true⟩ with
  | error e => rw [hs] at hv; cases hv
  | ok st =>
    obtain ⟨hi, hne⟩ := key D le_rfl st hs
    refine ⟨hi.le, fun he => ?_⟩
    by_contra hcon
    push Not at hcon
    rw [hs] at hv
    simp only [bind, Except.bind] at hv
    rw [fullRelationValue_ok _ _ _ _ ha] at hv
    simp only [pure, Except.pure, Except.ok.injEq, Bool.and_eq_true, decide_eq_true_eq] at hv
    refine hne hv.1 hcon.1 hcon.2 ?_
    have hev : proof.evaluations = foldAll ((challenges ch proof.univariates).take D) T 0 := funext he
    rw [← hv.2, hi.result, sumAt_last p alphas betas T D _ (by rw [List.length_take, challenges_length]; have := hi.le; omega), hev]

end Verif.Honk
