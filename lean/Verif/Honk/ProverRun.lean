import Verif.Honk.ProverLemmas

/-! # The run of the prover -/

namespace Verif.Honk

open Polynomial

variable {F : Type} [Field F] [DecidableEq F]

omit [DecidableEq F] in
theorem challenges_append {M : Type} (ch : List M → F) (sent : List M) (g : M) :
    challenges ch (sent ++ [g]) = challenges ch sent ++ [ch (sent ++ [g])] := by
  rw [challenges, List.length_append, List.length_singleton, List.range_succ, List.map_append]
  congr 1
  · refine List.map_congr_left fun r hr => ?_
    rw [List.take_append_of_le_length (by have := List.mem_range.1 hr; omega)]
  · simp [List.take_of_length_le]

omit [DecidableEq F] in
@[simp] theorem challenges_length {M : Type} (ch : List M → F) (sent : List M) : (challenges ch sent).length = sent.length := by
  simp [challenges]

/-! ## Folding -/

omit [DecidableEq F] in
theorem getD_ge {l : List F} {i : Nat} (h : l.length ≤ i) : l.getD i 0 = 0 := by
  simp [List.getD, List.getElem?_eq_none h]

omit [DecidableEq F] in
theorem fold_getD (u : F) (l : List F) (n : Nat) (k : Nat) :
    (fold u l n).getD k 0 = if k < n then l.getD (2 * k) 0 + (l.getD (2 * k + 1) 0 - l.getD (2 * k) 0) * u else 0 := by
  rw [fold]
  split_ifs with h
  · simp [List.getD, h]
  · exact getD_ge (by simpa using h)

omit [DecidableEq F] in
theorem fold_length (u : F) (l : List F) (n : Nat) : (fold u l n).length = n := by simp [fold]

omit [DecidableEq F] in
theorem Holds.fold {polys : Col → List F} {n : Nat} {T : Nat → Col → F} (h : Holds polys (2 * n) T) (u : F) :
    Holds (fun c => Honk.fold u (polys c) n) n (foldRows u T) := by
  refine ⟨fun c => fold_length _ _ _, fun c l => ?_⟩
  rw [fold_getD, foldRows, ← h.value, ← h.value]
  split_ifs with hl
  · rfl
  · rw [getD_ge (by rw [h.length]; omega), getD_ge (by rw [h.length]; omega)]; ring

theorem partiallyEvaluateInplace_ok {polys : Col → List F} {n : Nat} (hn : 0 < n) {T : Nat → Col → F} (h : Holds polys (2 * n) T) (u : F) :
    ∃ polys', partiallyEvaluateInplace polys u = .ok polys' ∧ Holds polys' (max 2 n) (foldRows u T) := by
  rw [partiallyEvaluateInplace, if_pos (by simp [h.length])]
  refine ⟨_, rfl, ?_⟩
  have hf := h.fold u
  refine ⟨fun c => ?_, fun c l => ?_⟩
  · simp only [h.length, show 2 * n / 2 = n from by omega, fold_length]
    split_ifs with h2
    · have : n = 1 := by omega
      subst this
      simp [fold_length]
    · rw [fold_length]; omega
  · simp only [h.length, show 2 * n / 2 = n from by omega, fold_length]
    rw [← hf.value c l]
    split_ifs with h2
    · have : n = 1 := by omega
      subst this
      by_cases hl : l < 1
      · simp [List.getD, fold_length, List.getElem?_append_left, hl]
      · rw [getD_ge (l := Honk.fold u (polys c) 1) (by rw [fold_length]; omega)]
        have : l = 1 ∨ 2 ≤ l := by omega
        rcases this with rfl | hl
        · simp [List.getD, fold_length]
        · exact getD_ge (by simp [fold_length]; omega)
    · rfl

omit [DecidableEq F] in
theorem Holds.virtual {polys : Col → List F} {T : Nat → Col → F} (h : Holds polys 2 T) (hz : ZeroFrom 1 T) (u : F) :
    Holds (fun c => match polys c with | [] => [] | x :: xs => x * (1 - u) :: xs) 2 (foldRows u T) := by
  have hc : ∀ c, ∃ x y, polys c = [x, y] := fun c => List.length_eq_two.1 (h.length c)
  refine ⟨fun c => ?_, fun c l => ?_⟩
  · obtain ⟨x, y, e⟩ := hc c
    simp [e]
  · obtain ⟨x, y, e⟩ := hc c
    have hv := h.value c
    simp only [e] at hv ⊢
    rcases l with _ | l
    · have h0 := hv 0
      have h1 := hz 1 (by omega) c
      simp at h0
      simp [foldRows, h1, ← h0]
      ring
    · have := hv (l + 1)
      rw [hz _ (by omega)] at this
      simp only [List.getD_cons_succ] at this ⊢
      rw [this, foldRows, hz _ (by omega), hz _ (by omega)]
      ring

/-! ## The gate separator -/

omit [DecidableEq F] in
theorem partiallyEvaluate_ok (s : Separator F) (u : F) (h : s.idx < s.betas.length) :
    s.partiallyEvaluate u = .ok { s with
      partialResult := s.partialResult * (1 + u * (s.betas.getD s.idx 0 - 1)), idx := s.idx + 1, periodicity := s.periodicity * 2 } := by
  rw [Separator.partiallyEvaluate, index_ok _ _ 0 h]
  rfl

omit [DecidableEq F] in
theorem constructVirtual_ok (betas us : List F) (h : us.length ≤ betas.length) :
    ∃ s, Separator.constructVirtual betas us = .ok s ∧ s.betas = betas ∧ s.idx = us.length ∧ s.partialResult = sepValue betas us := by
  induction us using List.reverseRecOn with
  | nil => exact ⟨_, rfl, rfl, rfl, by cases betas <;> rfl⟩
  | append_singleton us u ih =>
    obtain ⟨s, hs, h1, h2, h3⟩ := ih (by simp at h; omega)
    simp only [List.length_append, List.length_singleton] at h
    rw [Separator.constructVirtual] at hs
    rw [Separator.constructVirtual, List.foldlM_append, hs]
    have e : (Except.ok s : Except Err (Separator F)) >>= (fun y => [u].foldlM Separator.partiallyEvaluate y) = s.partiallyEvaluate u := by
      show [u].foldlM Separator.partiallyEvaluate s = _
      simp
    rw [e, partiallyEvaluate_ok s u (by rw [h1, h2]; omega)]
    refine ⟨_, rfl, ?_⟩
    · refine ⟨h1, by simp [h2], ?_⟩
      simp only [h1, h2, h3]
      rw [sepValue_append _ _ _ (by omega)]

/-! ## The rounds -/

section run

variable (p : Params F) (alphas betas : List F) (ch : List (Univariate F 8) → F) (T : Nat → Col → F) (d D : Nat)
  (SN : (Col → F) → (Col → F) → Prop)

/-- The polynomial of the round after the challenges `us`. -/
noncomputable def polyAt (us : List F) : F[X] :=
  roundPoly (scaleFactor 1 alphas) p (D - us.length - 1) (betas.getD us.length 0) (betas.drop (us.length + 1)) (sepValue betas us)
    (foldAll us T)

/-- What holds after `r` rounds; `SN` is the condition on the edges of a round under which its univariate is right. -/
structure Inv (r : Nat) (st : ProverState F 8) : Prop where
  sent : st.sent.length = r
  chals : st.challenges = challenges ch st.sent
  holds : Holds st.polys (max 2 (2 ^ (d - r))) (foldAll st.challenges T)
  zero : ZeroFrom (2 ^ (d - r)) (foldAll st.challenges T)
  sepBetas : st.sep.betas = betas
  idx : st.sep.idx = r
  result : st.sep.partialResult = sepValue betas st.challenges
  polys : ∀ j < r, (∀ l < 2 ^ (D - j - 1), SN (foldAll (st.challenges.take j) T (2 * l)) (foldAll (st.challenges.take j) T (2 * l + 1))) →
    st.sent[j]? = some (Univariate.ofPoly 8 (polyAt p alphas betas T D (st.challenges.take j)))

/-- What holds in addition before the virtual rounds. -/
structure Inv' (r : Nat) (st : ProverState F 8) : Prop extends Inv p alphas betas ch T d D SN r st where
  products : st.sep.products = Separator.betaProducts betas d
  periodicity : st.sep.periodicity = 2 ^ (r + 1)
  roundSize : st.roundSize = 2 ^ (d - r)

variable {p alphas betas ch T d D SN}

omit [DecidableEq F] in
theorem polys_append {r : Nat} {sent : List (Univariate F 8)} {us : List F} {g : Univariate F 8} {u : F} (hs : sent.length = r)
    (hu : us.length = r)
    (h : ∀ j < r, (∀ l < 2 ^ (D - j - 1), SN (foldAll (us.take j) T (2 * l)) (foldAll (us.take j) T (2 * l + 1))) →
      sent[j]? = some (Univariate.ofPoly 8 (polyAt p alphas betas T D (us.take j))))
    (hg : (∀ l < 2 ^ (D - r - 1), SN (foldAll us T (2 * l)) (foldAll us T (2 * l + 1))) →
      g = Univariate.ofPoly 8 (polyAt p alphas betas T D us)) :
    ∀ j < r + 1, (∀ l < 2 ^ (D - j - 1), SN (foldAll ((us ++ [u]).take j) T (2 * l)) (foldAll ((us ++ [u]).take j) T (2 * l + 1))) →
      (sent ++ [g])[j]? = some (Univariate.ofPoly 8 (polyAt p alphas betas T D ((us ++ [u]).take j))) := by
  intro j hj
  rw [List.take_append_of_le_length (by omega)]
  intro hl
  by_cases hjr : j = r
  · subst hjr
    rw [List.take_of_length_le (by omega)] at hl ⊢
    rw [← hg hl, List.getElem?_append_right (by omega)]
    simp [hs]
  · rw [List.getElem?_append_left (by omega)]
    exact h j (by omega) hl

theorem weights_ok (hb : d ≤ betas.length) (r : Nat) (hr : r < d) (k : Nat) (hk : k < 2 ^ (d - r - 1)) :
    index (Separator.betaProducts betas d) (k * 2 ^ (r + 1)) = .ok (weight (betas.drop (r + 1)) k) := by
  have hlt : k * 2 ^ (r + 1) < 2 ^ d := by
    calc k * 2 ^ (r + 1) < 2 ^ (d - r - 1) * 2 ^ (r + 1) := Nat.mul_lt_mul_of_pos_right hk (by positivity)
      _ = 2 ^ d := by rw [← pow_add]; congr 1; omega
  rw [betaProducts_eq betas d hb, index_ok _ _ 0 (by simpa using hlt)]
  congr 1
  rw [← weight_drop, ← weight_take betas d _ hlt]
  simp [List.getD, hlt]

theorem univariate_real (hd8 : Distinct F 8) (ha : alphas.length = 27) (hb : D ≤ betas.length) (hdD : d ≤ D) {r : Nat} (hr : r < d)
    {polys : Col → List F} {us : List F} (hus : us.length = r) (hh : Holds polys (2 ^ (d - r)) (foldAll us T))
    (hz : ZeroFrom (2 ^ (d - r)) (foldAll us T)) {sep : Separator F} (hsb : sep.betas = betas) (hsi : sep.idx = r)
    (hsr : sep.partialResult = sepValue betas us) (hsp : sep.products = Separator.betaProducts betas d)
    (hsq : sep.periodicity = 2 ^ (r + 1)) :
    ∃ g, computeUnivariate 8 p sep alphas polys (2 ^ (d - r)) = .ok g ∧
      ((∀ l < 2 ^ (D - r - 1), SkipsNothing p (foldAll us T (2 * l)) (foldAll us T (2 * l + 1))) →
        g = Univariate.ofPoly 8 (polyAt p alphas betas T D us)) := by
  have he : 2 ^ (d - r) = 2 * 2 ^ (d - r - 1) := by rw [← pow_succ']; congr 1; omega
  rw [he] at hh hz ⊢
  refine ⟨_, computeUnivariate_ok p alphas ha sep (by rw [hsb, hsi]; omega) hd8 hh (2 ^ (d - r - 1)) le_rfl
    (fun k => weight (betas.drop (r + 1)) k) (fun k hk => by rw [hsp, hsq]; exact weights_ok (by omega) r hr k hk), fun hskip => ?_⟩
  have hle : 2 ^ (d - r - 1) ≤ 2 ^ (D - r - 1) := Nat.pow_le_pow_right (by omega) (by omega)
  rw [roundUnivariate_eq p alphas _ _ (betas.drop (r + 1)) (D - r - 1) _ hle _ hz _ (fun _ _ => rfl) hd8
    (fun k hk => hskip k (by omega)), polyAt, hsb, hsi, hsr, hus]

omit [DecidableEq F] in
/-- The next state of a round. -/
theorem Inv'.step (hb : D ≤ betas.length) (hdD : d ≤ D) {r : Nat} (hr : r < d) {st : ProverState F 8}
    (h : Inv' p alphas betas ch T d D SN r st) {g : Univariate F 8}
    (hg : (∀ l < 2 ^ (D - r - 1), SN (foldAll st.challenges T (2 * l)) (foldAll st.challenges T (2 * l + 1))) →
      g = Univariate.ofPoly 8 (polyAt p alphas betas T D st.challenges)) {polys' : Col → List F}
    (hp : Holds polys' (max 2 (2 ^ (d - (r + 1)))) (foldRows (ch (st.sent ++ [g])) (foldAll st.challenges T))) :
    Inv' p alphas betas ch T d D SN (r + 1) ⟨st.sent ++ [g], st.challenges ++ [ch (st.sent ++ [g])], polys',
      { st.sep with
        partialResult := st.sep.partialResult * (1 + ch (st.sent ++ [g]) * (st.sep.betas.getD st.sep.idx 0 - 1))
        idx := st.sep.idx + 1
        periodicity := st.sep.periodicity * 2 }, st.roundSize / 2⟩ := by
  have hlen : st.challenges.length = r := by rw [h.chals, challenges_length, h.sent]
  have he : 2 ^ (d - r) = 2 * 2 ^ (d - (r + 1)) := by rw [← pow_succ']; congr 1; omega
  refine ⟨⟨?_, ?_, ?_, ?_, h.sepBetas, ?_, ?_, ?_⟩, h.products, ?_, ?_⟩
  · simp [h.sent]
  · simp only []
    rw [challenges_append, h.chals]
  · simp only []
    rw [foldAll_append]
    exact hp
  · simp only []
    rw [foldAll_append]
    have := h.zero.fold (ch (st.sent ++ [g]))
    rwa [he, show (2 * 2 ^ (d - (r + 1)) + 1) / 2 = 2 ^ (d - (r + 1)) from by omega] at this
  · simp [h.idx]
  · simp only []
    rw [sepValue_append _ _ _ (by omega), h.result, h.sepBetas, h.idx, hlen]
  · exact polys_append h.sent hlen h.polys hg
  · simp only []
    rw [h.periodicity, pow_succ _ (r + 1)]
  · simp only []
    rw [h.roundSize, he]; omega

theorem realRound_ok (hd8 : Distinct F 8) (ha : alphas.length = 27) (hb : D ≤ betas.length) (hdD : d ≤ D) {r : Nat} (hr : r < d)
    {st : ProverState F 8} (h : Inv' p alphas betas ch T d D (SkipsNothing p) r st) :
    ∃ st', realRound p alphas ch st = .ok st' ∧ Inv' p alphas betas ch T d D (SkipsNothing p) (r + 1) st' := by
  have hlen : st.challenges.length = r := by rw [h.chals, challenges_length, h.sent]
  have he : 2 ^ (d - r) = 2 * 2 ^ (d - (r + 1)) := by rw [← pow_succ']; congr 1; omega
  have hpos := Nat.two_pow_pos (d - (r + 1))
  have hh : Holds st.polys (2 ^ (d - r)) (foldAll st.challenges T) := by
    have := h.holds
    rwa [max_eq_right (by omega)] at this
  obtain ⟨g, hg, hgp⟩ := univariate_real (p := p) (D := D) hd8 ha hb hdD hr hlen hh h.zero h.sepBetas h.idx h.result h.products h.periodicity
  obtain ⟨polys', hp, hp'⟩ := partiallyEvaluateInplace_ok (n := 2 ^ (d - (r + 1))) hpos (by rwa [← he]) (ch (st.sent ++ [g]))
  have hstep := h.step hb hdD hr hgp hp'
  rw [realRound, h.roundSize, hg]
  simp only [bind, Except.bind]
  rw [hp]
  simp only []
  rw [partiallyEvaluate_ok _ _ (by rw [h.sepBetas, h.idx]; omega)]
  rw [h.roundSize] at hstep
  exact ⟨_, rfl, hstep⟩

omit [DecidableEq F] in
/-- The next state of a virtual round. -/
theorem Inv.step (hb : D ≤ betas.length) {r : Nat} (hr : d ≤ r) (hrD : r < D) {st : ProverState F 8}
    (h : Inv p alphas betas ch T d D SN r st) {g : Univariate F 8}
    (hg : (∀ l < 2 ^ (D - r - 1), SN (foldAll st.challenges T (2 * l)) (foldAll st.challenges T (2 * l + 1))) →
      g = Univariate.ofPoly 8 (polyAt p alphas betas T D st.challenges)) :
    Inv p alphas betas ch T d D SN (r + 1) ⟨st.sent ++ [g], st.challenges ++ [ch (st.sent ++ [g])],
      fun c => match st.polys c with | [] => [] | x :: xs => x * (1 - ch (st.sent ++ [g])) :: xs,
      { st.sep with
        partialResult := st.sep.partialResult * (1 + ch (st.sent ++ [g]) * (st.sep.betas.getD st.sep.idx 0 - 1))
        idx := st.sep.idx + 1
        periodicity := st.sep.periodicity * 2 }, st.roundSize⟩ := by
  have hlen : st.challenges.length = r := by rw [h.chals, challenges_length, h.sent]
  have e1 : d - r = 0 := by omega
  have e2 : d - (r + 1) = 0 := by omega
  have hh : Holds st.polys 2 (foldAll st.challenges T) := by
    have := h.holds
    rwa [e1, pow_zero, max_eq_left (by omega)] at this
  have hz : ZeroFrom 1 (foldAll st.challenges T) := by
    have := h.zero
    rwa [e1, pow_zero] at this
  refine ⟨?_, ?_, ?_, ?_, h.sepBetas, ?_, ?_, ?_⟩
  · simp [h.sent]
  · simp only []
    rw [challenges_append, h.chals]
  · simp only []
    rw [foldAll_append, e2, pow_zero, max_eq_left (by omega)]
    exact hh.virtual hz _
  · simp only []
    rw [foldAll_append, e2, pow_zero]
    exact hz.fold _
  · simp [h.idx]
  · simp only []
    rw [sepValue_append _ _ _ (by omega), h.result, h.sepBetas, h.idx, hlen]
  · exact polys_append h.sent hlen h.polys hg

theorem virtualRound_ok (hd8 : Distinct F 8) (ha : alphas.length = 27) (hb : D ≤ betas.length) {r : Nat} (hr : d ≤ r)
    (hrD : r < D) {st : ProverState F 8} (h : Inv p alphas betas ch T d D (SkipsNothing p) r st) :
    ∃ st', virtualRound p alphas ch st = .ok st' ∧ Inv p alphas betas ch T d D (SkipsNothing p) (r + 1) st' := by
  have hlen : st.challenges.length = r := by rw [h.chals, challenges_length, h.sent]
  have e1 : d - r = 0 := by omega
  have hh : Holds st.polys 2 (foldAll st.challenges T) := by
    have := h.holds
    rwa [e1, pow_zero, max_eq_left (by omega)] at this
  have hz : ZeroFrom 1 (foldAll st.challenges T) := by
    have := h.zero
    rwa [e1, pow_zero] at this
  have hg := computeVirtualContribution_ok p alphas ha st.sep (by rw [h.sepBetas, h.idx]; omega) hd8 hh le_rfl
  rw [virtualRound, hg]
  simp only [bind, Except.bind]
  rw [partiallyEvaluate_ok _ _ (by rw [h.sepBetas, h.idx]; omega)]
  refine ⟨_, rfl, h.step hb hr hrD fun hskip => ?_⟩
  have hz2 : ZeroFrom (2 * 1) (foldAll st.challenges T) := fun l hl c => hz l (by omega) c
  rw [roundUnivariate_eq p alphas _ _ (betas.drop (r + 1)) (D - r - 1) 1 (Nat.one_le_two_pow) _ hz2 _
    (fun k hk => by rw [show k = 0 from by omega, weight_zero]) hd8 (fun k hk => hskip k (by have := Nat.two_pow_pos (D - r - 1); omega)),
    polyAt, h.sepBetas, h.idx, h.result, hlen]

theorem rounds_ok {σ : Type} (step : σ → Except Err σ) (I : Nat → σ → Prop) (r k : Nat)
    (hstep : ∀ i, r ≤ i → i < r + k → ∀ st, I i st → ∃ st', step st = .ok st' ∧ I (i + 1) st') (st : σ) (h : I r st) :
    ∃ st', rounds step k st = .ok st' ∧ I (r + k) st' := by
  induction k generalizing r st with
  | zero => exact ⟨st, rfl, h⟩
  | succ k ih =>
    obtain ⟨st1, h1, hi1⟩ := hstep r le_rfl (by omega) st h
    obtain ⟨st2, h2, hi2⟩ := ih (r + 1) (fun i hi hk => hstep i (by omega) (by omega)) st1 hi1
    refine ⟨st2, ?_, by rwa [show r + (k + 1) = r + 1 + k from by omega]⟩
    rw [rounds, h1]
    exact h2

omit [DecidableEq F] in
theorem holds_columns (n : Nat) (table : Col → Nat → F) : Holds (columns n table) n (fun l c => pad n (table c) l) := by
  refine ⟨fun c => by simp [columns], fun c l => ?_⟩
  simp only [columns, pad]
  split_ifs with h
  · simp [List.getD, h]
  · exact getD_ge (by simpa using h)

omit [DecidableEq F] in
/-- The state after the first round. -/
theorem inv_first (hb : D ≤ betas.length) (hd : 2 ≤ d) (hdD : d ≤ D) {polys : Col → List F} (hh : Holds polys (2 ^ d) T)
    (hz : ZeroFrom (2 ^ d) T) {g : Univariate F 8}
    (hg : (∀ l < 2 ^ (D - 0 - 1), SN (foldAll [] T (2 * l)) (foldAll [] T (2 * l + 1))) →
      g = Univariate.ofPoly 8 (polyAt p alphas betas T D [])) :
    Inv' p alphas betas ch T d D SN 1 ⟨[g], [ch [g]], fun c => Honk.fold (ch [g]) (polys c) (2 ^ d / 2),
      { Separator.new betas d with
        partialResult := (Separator.new betas d).partialResult * (1 + ch [g] * ((Separator.new betas d).betas.getD (Separator.new betas d).idx 0 - 1))
        idx := (Separator.new betas d).idx + 1
        periodicity := (Separator.new betas d).periodicity * 2 }, 2 ^ d / 2⟩ := by
  have he : 2 ^ d = 2 * 2 ^ (d - 1) := by rw [← pow_succ']; congr 1; omega
  have h2 : 2 ≤ 2 ^ (d - 1) := by
    calc 2 = 2 ^ 1 := rfl
      _ ≤ 2 ^ (d - 1) := Nat.pow_le_pow_right (by omega) (by omega)
  have hdiv : 2 ^ d / 2 = 2 ^ (d - 1) := by omega
  have hfold : foldAll [ch [g]] T = foldRows (ch [g]) T := rfl
  refine ⟨⟨rfl, ?_, ?_, ?_, rfl, rfl, ?_, ?_⟩, rfl, ?_, hdiv⟩
  · simp [challenges]
  · simp only []
    rw [hfold, hdiv, max_eq_right h2]
    exact (show Holds polys (2 * 2 ^ (d - 1)) T by rwa [← he]).fold _
  · simp only []
    rw [hfold]
    have := hz.fold (ch [g])
    rwa [show (2 ^ d + 1) / 2 = 2 ^ (d - 1) from by omega] at this
  · cases betas with
    | nil => simp at hb; omega
    | cons b bs => simp [Separator.new, sepValue]
  · exact polys_append (sent := []) (us := []) rfl rfl (fun j hj => by omega) hg
  · simp [Separator.new]

theorem sumcheckProve_ok (hd8 : Distinct F 8) (ha : alphas.length = 27) (hb : D ≤ betas.length) (hd : 2 ≤ d) (hdD : d ≤ D)
    (table : Col → Nat → F) :
    ∃ proof, sumcheckProve p alphas betas ch (2 ^ d) D (columns (2 ^ d) table) = .ok proof ∧
      proof.univariates.length = D ∧
      (∀ c, proof.evaluations c = extension (pad (2 ^ d) (table c)) (challenges ch proof.univariates)) ∧
      ∀ j < D, (∀ l < 2 ^ (D - j - 1), SkipsNothing p
          (foldAll ((challenges ch proof.univariates).take j) (fun l c => pad (2 ^ d) (table c) l) (2 * l))
          (foldAll ((challenges ch proof.univariates).take j) (fun l c => pad (2 ^ d) (table c) l) (2 * l + 1))) →
        proof.univariates[j]? = some (Univariate.ofPoly 8
          (polyAt p alphas betas (fun l c => pad (2 ^ d) (table c) l) D ((challenges ch proof.univariates).take j))) := by
  generalize hTd : (fun l c => pad (2 ^ d) (table c) l : Nat → Col → F) = T
  have hh : Holds (columns (2 ^ d) table) (2 ^ d) T := hTd ▸ holds_columns _ _
  have hz : ZeroFrom (2 ^ d) T := by
    rw [← hTd]
    intro l hl c
    exact if_neg (by omega)
  obtain ⟨g, hg, hgp⟩ := univariate_real (p := p) (D := D) (T := T) (us := []) (sep := Separator.new betas d) hd8 ha hb hdD (r := 0) (by omega) rfl
    (by simpa [foldAll] using hh) (by simpa [foldAll] using hz) rfl rfl (by cases betas <;> rfl) rfl rfl
  have he : 2 ^ d = 2 * 2 ^ (d - 1) := by rw [← pow_succ']; congr 1; omega
  have h2 : 2 ≤ 2 ^ (d - 1) := by
    calc 2 = 2 ^ 1 := rfl
      _ ≤ 2 ^ (d - 1) := Nat.pow_le_pow_right (by omega) (by omega)
  have hdiv : 2 ^ d / 2 = 2 ^ (d - 1) := by omega
  rw [sumcheckProve, Nat.log2_two_pow]
  simp only [bind, Except.bind]
  rw [Nat.sub_zero] at hg
  rw [hg]
  simp only []
  rw [partiallyEvaluate_ok _ _ (by simp [Separator.new]; omega)]
  simp only []
  have hInv := inv_first (SN := SkipsNothing p) (ch := ch) hb hd hdD hh hz hgp
  obtain ⟨st1, hr1, hi1⟩ := rounds_ok (realRound p alphas ch) (Inv' p alphas betas ch T d D (SkipsNothing p)) 1 (d - 1)
    (fun i _ hi st h => realRound_ok hd8 ha hb hdD (by omega) h) _ hInv
  rw [show 1 + (d - 1) = d from by omega] at hi1
  rw [hr1]
  simp only []
  have hlen1 : st1.challenges.length = d := by rw [hi1.chals, challenges_length, hi1.sent]
  obtain ⟨vs, hv, hv1, hv2, hv3⟩ := constructVirtual_ok betas st1.challenges (by omega)
  rw [hv]
  simp only []
  have hInv2 : Inv p alphas betas ch T d D (SkipsNothing p) d { st1 with sep := vs } :=
    ⟨hi1.sent, hi1.chals, hi1.holds, hi1.zero, hv1, by simp [hv2, hlen1], hv3, hi1.polys⟩
  obtain ⟨st2, hr2, hi2⟩ := rounds_ok (virtualRound p alphas ch) (Inv p alphas betas ch T d D (SkipsNothing p)) d (D - d)
    (fun i hi hi' st h => virtualRound_ok hd8 ha hb hi (by omega) h) _ hInv2
  rw [show d + (D - d) = D from by omega] at hi2
  rw [hr2]
  simp only []
  rw [extractClaimedEvaluations, if_pos (by simp [hi2.holds.length])]
  refine ⟨_, rfl, hi2.sent, fun c => ?_, ?_⟩
  · simp only []
    rw [hi2.holds.value, foldAll_zero, hi2.chals, ← hTd]
  · have := hi2.polys
    rw [hi2.chals] at this
    exact this

end run

end Verif.Honk
