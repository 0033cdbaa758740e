import Verif.Honk.CoSumcheckRun

/-!
# Lemmas: the run of the collaborative sumcheck
-/

namespace Verif.Honk

open Plonk (Linear)

variable {ι S M F A : Type} [DecidableEq ι] [Field F] [DecidableEq F] [Zero A] [Add A] [Sub A] [Neg A] [SMul F A]

section

variable {P : (ι → A) → F → Prop} {addPub : ι → A → F → A} {promote : ι → F → A} (hl : Linear P addPub promote)
include hl

omit [DecidableEq ι] [DecidableEq F] in
theorem coFold_rel {s : ι → List A} {vs : List F} (hs : Cols P s vs) (u : F) (n : Nat) :
    Cols P (fun i => coFold u (s i) n) (fold u vs n) := by
  refine Groth16.Cols.ofFn n fun k _ => ?_
  have h0 := Groth16.Cols.getD hs hl.zero (2 * k)
  have h1 := Groth16.Cols.getD hs hl.zero (2 * k + 1)
  have := hl.add _ _ _ _ h0 (hl.smul u _ _ (hl.sub _ _ _ _ h1 h0))
  rw [smul_eq_mul, mul_comm u] at this
  exact this

omit [DecidableEq ι] [DecidableEq F] in
theorem cols_head {s : ι → List A} {vs : List F} (hs : Cols P s vs) (k : F) :
    Cols P (fun i => match s i with | [] => [] | x :: xs => k • x :: xs) (match (generalizing := false) vs with | [] => [] | x :: xs => x * k :: xs) := by
  obtain ⟨l, rfl, hf⟩ := hs
  cases hf with
  | nil => exact Cols.nil
  | @cons a b l vs hab hf =>
    have := hl.smul k _ _ hab
    rw [smul_eq_mul, mul_comm] at this
    exact Cols.cons this ⟨l, rfl, hf⟩

omit [DecidableEq ι] in
theorem coPartiallyEvaluate_ok {pub : Col → List F} {shr : ι → Col → List A} {polys : Col → List F} (hc : CRel P pub shr polys)
    {n : Nat} (hn : 0 < n) {T : Nat → Col → F} (h : Holds polys (2 * n) T) (u : F) :
    ∃ pub' shr' polys', (∀ i, coPartiallyEvaluate pub (shr i) u = .ok (pub', shr' i)) ∧ CRel P pub' shr' polys' ∧
      Holds polys' (max 2 n) (foldRows u T) := by
  obtain ⟨polys', hp, hh⟩ := partiallyEvaluateInplace_ok hn h u
  rw [partiallyEvaluateInplace, if_pos (by simp [h.length])] at hp
  have hp := Except.ok.inj hp
  refine ⟨_, fun i c => if (coFold u (shr i c) ((shr i c).length / 2)).length < 2 then coFold u (shr i c) ((shr i c).length / 2) ++ [0]
    else coFold u (shr i c) ((shr i c).length / 2), polys', fun i => by
      rw [coPartiallyEvaluate, if_pos (by simp [hc.length i, h.length])], ⟨fun c hcs => ?_, fun c hcs => ?_⟩, hh⟩
  · rw [← hp, hc.pub c hcs]
  · rw [← hp]
    have hs := hc.shr c hcs
    have hlen : ∀ i, (shr i c).length = 2 * n := fun i => by rw [hs.length i, h.length]
    have e1 : ∀ i, (coFold u (shr i c) (2 * n / 2)).length = n := fun i => by simp [coFold]
    simp only [hlen, h.length, e1, fold_length, show 2 * n / 2 = n from by omega]
    have hf := coFold_rel hl hs u n
    by_cases h2 : n < 2
    · have e1' : ∀ i, (coFold u (shr i c) n).length = n := fun i => by simp [coFold]
      simp only [e1', h2, if_true]
      exact hf.append (Cols.nil.cons hl.zero)
    · have e1' : ∀ i, (coFold u (shr i c) n).length = n := fun i => by simp [coFold]
      simp only [e1', h2, if_false]
      exact hf

end

/-- The states of the parties belong to a state in the clear. -/
def StRel (P : (ι → A) → F → Prop) (x : ι → CoState F A) (ps : ProverState F 8) : Prop :=
  ∃ pub shr, (x = fun i => ⟨ps.sent, ps.challenges, pub, shr i, ps.sep, ps.roundSize⟩) ∧ CRel P pub shr ps.polys

theorem mem_sharedCols (c : Col) : c ∈ Col.sharedCols ↔ c.shared = true := by cases c <;> decide

theorem getD_idxOf {α β : Type} [DecidableEq α] (l : List α) (g : α → β) (z : β) (a : α) (h : a ∈ l) : (l.map g).getD (l.idxOf a) z = g a := by
  have hlt : l.idxOf a < l.length := List.idxOf_lt_length_iff.2 h
  simp [List.getD, List.getElem?_eq_getElem hlt]

namespace SumSim

variable {I : (ι → S) → Prop} {dv : ι → SumDriver (MPC ι S M Err) F A} {P : (ι → A) → F → Prop} {H : (ι → F) → F → Prop}
  (h : SumSim I dv P H) {p : Params F} {alphas betas : List F} {ch : List (Univariate F 8) → F} {T : Nat → Col → F} {d D : Nat}
include h

theorem realRound (hd8 : Distinct F 8) (ha : alphas.length = 27) (hb : D ≤ betas.length) (hdD : d ≤ D) {r : Nat} (hr : r < d)
    {x : ι → CoState F A} {ps : ProverState F 8} (hx : StRel P x ps) (hi : Inv' p alphas betas ch T d D (fun _ _ => True) r ps) :
    IS I (fun i => coRealRound (dv i) p alphas ch (x i)) fun x' =>
      ∃ ps', StRel P x' ps' ∧ Inv' p alphas betas ch T d D (fun _ _ => True) (r + 1) ps' := by
  obtain ⟨pub, shr, rfl, hc⟩ := hx
  have hlen : ps.challenges.length = r := by rw [hi.chals, challenges_length, hi.sent]
  have he : 2 ^ (d - r) = 2 * 2 ^ (d - (r + 1)) := by rw [← pow_succ']; congr 1; omega
  have hpos := Nat.two_pow_pos (d - (r + 1))
  have hh : Holds ps.polys (2 * 2 ^ (d - (r + 1))) (foldAll ps.challenges T) := by
    have := hi.holds
    rwa [max_eq_right (by omega), he] at this
  have hz := hi.zero
  rw [he] at hz
  have hsi : ps.sep.idx < ps.sep.betas.length := by rw [hi.sepBetas, hi.idx]; omega
  have hg := h.computeUnivariate p hc hh hd8 ps.sep hsi alphas ha (2 ^ (d - (r + 1))) le_rfl (betas.drop (r + 1)) (D - r - 1)
    (Nat.pow_le_pow_right (by omega) (by omega)) hz
    (fun k hk => by rw [hi.products, hi.periodicity]; exact weights_ok (by omega) r hr k (by rwa [Nat.sub_sub]))
  rw [← he, ← hi.roundSize] at hg
  refine hg.bind fun g hg => (h.openUnivariate hg).bind fun g' hg' => ?_
  subst hg'
  generalize hG : Univariate.ofPoly 8 (roundPoly (scaleFactor 1 alphas) p (D - r - 1) (ps.sep.betas.getD ps.sep.idx 0)
    (betas.drop (r + 1)) ps.sep.partialResult (foldAll ps.challenges T)) = G
  have hG' : G = Univariate.ofPoly 8 (polyAt p alphas betas T D ps.challenges) := by
    rw [← hG, polyAt, hi.sepBetas, hi.idx, hi.result, hlen]
  obtain ⟨pub', shr', polys', h1, h2, h3⟩ := coPartiallyEvaluate_ok h.linear hc hpos hh (ch (ps.sent ++ [G]))
  refine (h.liftOk (v := fun i => (pub', shr' i)) h1 (Q := fun r => r = fun i => (pub', shr' i)) rfl).bind fun q hq => ?_
  subst hq
  refine (h.liftOk (v := fun _ => _) (fun i => partiallyEvaluate_ok ps.sep (ch (ps.sent ++ [G])) hsi) (Q := fun r => r = fun _ => _) rfl).bind
    fun sep hsep => ?_
  subst hsep
  exact IS.pure ⟨_, ⟨pub', shr', rfl, h2⟩, hi.step hb hdD hr (fun _ => hG') h3⟩

theorem virtualRound (hd8 : Distinct F 8) (ha : alphas.length = 27) (hb : D ≤ betas.length) {r : Nat} (hr : d ≤ r) (hrD : r < D)
    {x : ι → CoState F A} {ps : ProverState F 8} (hx : StRel P x ps) (hi : Inv p alphas betas ch T d D (fun _ _ => True) r ps) :
    IS I (fun i => coVirtualRound (dv i) p alphas ch (x i)) fun x' =>
      ∃ ps', StRel P x' ps' ∧ Inv p alphas betas ch T d D (fun _ _ => True) (r + 1) ps' := by
  obtain ⟨pub, shr, rfl, hc⟩ := hx
  have hlen : ps.challenges.length = r := by rw [hi.chals, challenges_length, hi.sent]
  have e1 : d - r = 0 := by omega
  have hh : Holds ps.polys 2 (foldAll ps.challenges T) := by
    have := hi.holds
    rwa [e1, pow_zero, max_eq_left (by omega)] at this
  have hz : ZeroFrom 2 (foldAll ps.challenges T) := by
    have := hi.zero
    rw [e1, pow_zero] at this
    exact fun l hl c => this l (by omega) c
  have hsi : ps.sep.idx < ps.sep.betas.length := by rw [hi.sepBetas, hi.idx]; omega
  refine (h.virtualContribution p hc hh hd8 ps.sep hsi alphas ha le_rfl (betas.drop (r + 1)) (D - r - 1) hz).bind fun g hg =>
    (h.openUnivariate hg).bind fun g' hg' => ?_
  subst hg'
  generalize hG : Univariate.ofPoly 8 (roundPoly (scaleFactor 1 alphas) p (D - r - 1) (ps.sep.betas.getD ps.sep.idx 0)
    (betas.drop (r + 1)) ps.sep.partialResult (foldAll ps.challenges T)) = G
  have hG' : G = Univariate.ofPoly 8 (polyAt p alphas betas T D ps.challenges) := by
    rw [← hG, polyAt, hi.sepBetas, hi.idx, hi.result, hlen]
  refine (h.liftOk (v := fun _ => _) (fun i => partiallyEvaluate_ok ps.sep (ch (ps.sent ++ [G])) hsi) (Q := fun r => r = fun _ => _) rfl).bind
    fun sep hsep => ?_
  subst hsep
  refine IS.pure ⟨_, ⟨fun c => match pub c with | [] => [] | x :: xs => x * (1 - ch (ps.sent ++ [G])) :: xs,
    fun i c => match shr i c with | [] => [] | x :: xs => (1 - ch (ps.sent ++ [G])) • x :: xs, rfl, fun c hcs => ?_, fun c hcs => ?_⟩,
    hi.step hb hr hrD (fun _ => hG')⟩
  · simp only [hc.pub c hcs]
    cases ps.polys c <;> rfl
  · have := cols_head h.linear (hc.shr c hcs) (1 - ch (ps.sent ++ [G]))
    simp only []
    generalize ps.polys c = l at this ⊢
    cases l <;> exact this

theorem rounds {σ τ : Type} {step : ι → σ → MPC ι S M Err σ} {R : (ι → σ) → τ → Prop} (J : Nat → τ → Prop) (r k : Nat)
    (hstep : ∀ q, r ≤ q → q < r + k → ∀ x y, R x y → J q y → IS I (fun i => step i (x i)) fun x' => ∃ y', R x' y' ∧ J (q + 1) y')
    {x : ι → σ} {y : τ} (hx : R x y) (hy : J r y) :
    IS I (fun i => coRounds (step i) k (x i)) fun x' => ∃ y', R x' y' ∧ J (r + k) y' := by
  induction k generalizing r x y with
  | zero => exact IS.pure ⟨y, hx, hy⟩
  | succ k ih =>
    refine (hstep r le_rfl (by omega) x y hx hy).bind fun x' ⟨y', hx', hy'⟩ => ?_
    rw [show r + (k + 1) = r + 1 + k from by omega]
    exact ih (r + 1) (fun q hq hk => hstep q (by omega) (by omega)) hx' hy'

theorem extract {pub : Col → List F} {shr : ι → Col → List A} {polys : Col → List F} (hc : CRel P pub shr polys)
    (hp : ∀ c, 0 < (polys c).length) :
    IS I (fun i => coExtractEvaluations (dv i) pub (shr i)) fun r => r = fun _ c => (polys c).getD 0 0 := by
  obtain ⟨Es, hE, hR⟩ := mapM_cols (R := P) Col.sharedCols (fun i c => index (shr i c) 0) (fun c => (polys c).getD 0 0) fun c hcs => by
    have hs := hc.shr c ((mem_sharedCols c).1 hcs)
    exact ⟨_, fun i => index_ok _ _ 0 (by rw [hs.length i]; exact hp c), Groth16.Cols.getD hs h.linear.zero 0⟩
  refine (h.liftOk (v := Es) hE (Q := fun r => r = Es) rfl).bind fun r hr => ?_
  subst hr
  refine (h.liftOk (v := fun _ c => (pub c).getD 0 0) (fun i => ?_) (Q := fun r => r = fun _ c => (pub c).getD 0 0) rfl).bind fun q hq => ?_
  · rw [coExtractEvaluations.extractPublic, if_pos]
    simp only [List.all_eq_true, Bool.or_eq_true, decide_eq_true_eq]
    intro c _
    by_cases hcs : c.shared = true
    · exact Or.inl hcs
    · exact Or.inr (by rw [hc.pub c (by simpa using hcs)]; exact hp c)
  · subst hq
    refine (h.openMany hR).bind fun l hl => IS.pure ?_
    subst hl
    funext i c
    by_cases hcs : c.shared = true
    · rw [if_pos hcs, getD_idxOf _ _ _ _ ((mem_sharedCols c).2 hcs)]
    · rw [if_neg hcs]
      simp only [hc.pub c (by simpa using hcs)]

theorem sumcheckProve (hd8 : Distinct F 8) (ha : alphas.length = 27) (hb : D ≤ betas.length) (hd : 2 ≤ d) (hdD : d ≤ D)
    (table : Col → Nat → F) {pub : Col → List F} {shr : ι → Col → List A} (hc : CRel P pub shr (columns (2 ^ d) table)) :
    IS I (fun i => coSumcheckProve (dv i) p alphas betas ch (2 ^ d) D pub (shr i)) fun r => ∃ proof, (r = fun _ => proof) ∧
      proof.univariates.length = D ∧
      (∀ c, proof.evaluations c = extension (pad (2 ^ d) (table c)) (challenges ch proof.univariates)) ∧
      ∀ j < D, proof.univariates[j]? = some (Univariate.ofPoly 8
          (polyAt p alphas betas (fun l c => pad (2 ^ d) (table c) l) D ((challenges ch proof.univariates).take j))) := by
  generalize hTd : (fun l c => pad (2 ^ d) (table c) l : Nat → Col → F) = T
  have hh : Holds (columns (2 ^ d) table) (2 ^ d) T := hTd ▸ holds_columns _ _
  have hz : ZeroFrom (2 ^ d) T := by
    rw [← hTd]
    intro l hl c
    exact if_neg (by omega)
  have he : 2 ^ d = 2 * 2 ^ (d - 1) := by rw [← pow_succ']; congr 1; omega
  have hsi : (Separator.new betas d).idx < (Separator.new betas d).betas.length := by simp [Separator.new]; omega
  have hg := h.computeUnivariate p hc hh hd8 (Separator.new betas d) hsi alphas ha (2 ^ (d - 1)) (by omega) (betas.drop (0 + 1)) (D - 0 - 1)
    (Nat.pow_le_pow_right (by omega) (by omega)) (by rwa [← he])
    (fun k hk => weights_ok (by omega) 0 (by omega) k (by simpa using hk))
  rw [← he] at hg
  have hprog : (fun i => coSumcheckProve (dv i) p alphas betas ch (2 ^ d) D pub (shr i)) = fun i =>
      coComputeUnivariate (dv i) p (Separator.new betas d) alphas pub (shr i) (2 ^ d) >>= fun g =>
      Honk.openUnivariate (dv i) g >>= fun g =>
      (dv i).lift ((Separator.new betas d).partiallyEvaluate (ch [g])) >>= fun sep =>
      coRounds (coRealRound (dv i) p alphas ch) (d - 1)
        ⟨[g], [ch [g]], fun c => fold (ch [g]) (pub c) (2 ^ d / 2), fun c => coFold (ch [g]) (shr i c) (2 ^ d / 2), sep, 2 ^ d / 2⟩ >>= fun st =>
      (dv i).lift (Separator.constructVirtual betas st.challenges) >>= fun vs =>
      coRounds (coVirtualRound (dv i) p alphas ch) (D - d) { st with sep := vs } >>= fun st =>
      coExtractEvaluations (dv i) st.pub st.shr >>= fun evaluations => pure ⟨st.sent, evaluations⟩ := by
    funext i
    simp only [coSumcheckProve, Nat.log2_two_pow]
  rw [hprog]
  refine hg.bind fun g hg => (h.openUnivariate hg).bind fun g' hg' => ?_
  subst hg'
  generalize hG : Univariate.ofPoly 8 (roundPoly (scaleFactor 1 alphas) p (D - 0 - 1)
    ((Separator.new betas d).betas.getD (Separator.new betas d).idx 0)
    (betas.drop (0 + 1)) (Separator.new betas d).partialResult T) = G
  have hG' : G = Univariate.ofPoly 8 (polyAt p alphas betas T D []) := by
    rw [← hG, polyAt]
    cases betas <;> rfl
  refine (h.liftOk (v := fun _ => _) (fun i => partiallyEvaluate_ok (Separator.new betas d) (ch [G]) hsi) (Q := fun r => r = fun _ => _) rfl).bind
    fun sep hsep => ?_
  subst hsep
  have hInv := inv_first (SN := fun _ _ => True) (ch := ch) (alphas := alphas) (p := p) hb hd hdD hh hz (fun _ => hG')
  refine (rounds h (R := StRel P) (Inv' p alphas betas ch T d D (fun _ _ => True)) 1 (d - 1)
    (fun q _ hq x y hx hy => h.realRound hd8 ha hb hdD (by omega) hx hy)
    (y := ⟨[G], [ch [G]], fun c => Honk.fold (ch [G]) (columns (2 ^ d) table c) (2 ^ d / 2), _, 2 ^ d / 2⟩)
    ⟨_, _, rfl, fun c hcs => by simp only [hc.pub c hcs], fun c hcs => coFold_rel h.linear (hc.shr c hcs) _ _⟩ hInv).bind ?_
  rintro x1 ⟨st1, ⟨pub1, shr1, rfl, hc1⟩, hi1⟩
  rw [show 1 + (d - 1) = d from by omega] at hi1
  have hlen1 : st1.challenges.length = d := by rw [hi1.chals, challenges_length, hi1.sent]
  obtain ⟨vs, hv, hv1, hv2, hv3⟩ := constructVirtual_ok betas st1.challenges (by omega)
  refine (h.liftOk (v := fun _ => vs) (fun _ => hv) (Q := fun r => r = fun _ => vs) rfl).bind fun q hq => ?_
  subst hq
  have hInv2 : Inv p alphas betas ch T d D (fun _ _ => True) d { st1 with sep := vs } :=
    ⟨hi1.sent, hi1.chals, hi1.holds, hi1.zero, hv1, by simp [hv2, hlen1], hv3, hi1.polys⟩
  refine (rounds h (R := StRel P) (Inv p alphas betas ch T d D (fun _ _ => True)) d (D - d)
    (fun q hq hq' x y hx hy => h.virtualRound hd8 ha hb hq (by omega) hx hy) (y := { st1 with sep := vs }) ⟨pub1, shr1, rfl, hc1⟩ hInv2).bind ?_
  rintro x2 ⟨st2, ⟨pub2, shr2, rfl, hc2⟩, hi2⟩
  rw [show d + (D - d) = D from by omega] at hi2
  refine (h.extract hc2 (fun c => by rw [hi2.holds.length]; omega)).bind fun ev hev => ?_
  subst hev
  refine IS.pure ⟨⟨st2.sent, fun c => (st2.polys c).getD 0 0⟩, rfl, hi2.sent, fun c => ?_, ?_⟩
  · simp only []
    rw [hi2.holds.value, foldAll_zero, hi2.chals, ← hTd]
  · have := hi2.polys
    rw [hi2.chals] at this
    exact fun j hj => this j hj fun _ _ => trivial

end SumSim

end Verif.Honk
