import Verif.Gadgets.Poseidon2ShamirLemmas

/-!
# Poseidon2: what happens when the precomputations are used up
-/

namespace Verif

/-- Every party panics, with the same message. -/
def AllPanic {ι S α : Type} (r : ι → Except Err (α × S)) : Prop := ∃ msg, ∀ i, r i = .error (.panic msg)

section

variable {ι S M α β : Type} [DecidableEq ι]

theorem SpecE.bindPanic {p : ι → MPC ι S M Err α} {k : ι → α → MPC ι S M Err β} {st : ι → S}
    (h : SpecE p st AllPanic) : SpecE (fun i => p i >>= k i) st AllPanic := by
  refine SpecE.bindE (Q₁ := fun _ _ => False) (Qe := fun e => ∃ m, ∀ i, e i = .panic m) (h.mono ?_)
    (fun _ _ h => h.elim) ?_
  · rintro r ⟨m, hm⟩
    exact Or.inl ⟨fun _ => .panic m, hm, m, fun _ => rfl⟩
  · rintro e ⟨m, hm⟩
    exact ⟨m, fun i => by simp only [hm i]⟩

theorem specE_panic {msg : String} {st : ι → S} :
    SpecE (M := M) (fun _ : ι => (MPC.panicWith msg : MPC ι S M Err α)) st AllPanic :=
  SpecE.panicWith ⟨msg, fun _ => rfl⟩

end

namespace Poseidon2

open PartyID

variable {ι F R M α S σ V : Type}

section

variable [DecidableEq ι]

theorem specE_loop_exhausted {τ : Type} {Rel : Nat → (ι → σ) → V → Prop} {I : (ι → τ) → Prop} {N c : Nat}
    {f : ι → σ → Nat → MPC ι τ M Err σ} {step : V → Nat → V} {l : List Nat}
    (h : ∀ r ∈ l, ∀ off s v st, off + c ≤ N → Rel off s v → I st →
      Spec (fun i => f i (s i) r) st (fun s' st' => Rel (off + c) s' (step v r) ∧ I st'))
    (h' : ∀ r ∈ l, ∀ off s v st, N < off + c → Rel off s v → I st →
      SpecE (fun i => f i (s i) r) st AllPanic)
    {off : Nat} {s : ι → σ} {v : V} {st : ι → τ} (hle : off ≤ N) (hoff : N < off + c * l.length) (hs : Rel off s v)
    (hI : I st) : SpecE (fun i => l.foldlM (f i) (s i)) st AllPanic := by
  induction l generalizing off s v st with
  | nil => simp at hoff; omega
  | cons r l ih =>
    simp only [List.foldlM_cons]
    by_cases hc : off + c ≤ N
    · refine SpecE.bind (h r (by simp) off s v st hc hs hI) ?_
      rintro s' st' ⟨hs', hI'⟩
      refine ih (fun r hr => h r (by simp [hr])) (fun r hr => h' r (by simp [hr])) hc ?_ hs' hI'
      have e : off + c * (r :: l).length = off + c + c * l.length := by simp; ring
      omega
    · exact SpecE.bindPanic (h' r (by simp) off s v st (by omega) hs hI)

theorem specE_rounds_exhausted {τ : Type} (p : Params F) {Rel : Nat → (ι → σ) → V → Prop} {I : (ι → τ) → Prop}
    {N ce ci : Nat} {ext int : Nat → σ → MPC ι τ M Err σ} {ext' int' : Nat → V → V}
    (he : ∀ r < p.roundsFBeginning + p.roundsFEnd, ∀ off s v st, off + ce ≤ N → Rel off s v → I st →
      Spec (fun i => ext r (s i)) st (fun s' st' => Rel (off + ce) s' (ext' r v) ∧ I st'))
    (hi : ∀ r < p.roundsP, ∀ off s v st, off + ci ≤ N → Rel off s v → I st →
      Spec (fun i => int r (s i)) st (fun s' st' => Rel (off + ci) s' (int' r v) ∧ I st'))
    (he' : ∀ r < p.roundsFBeginning + p.roundsFEnd, ∀ off s v st, N < off + ce → Rel off s v → I st →
      SpecE (fun i => ext r (s i)) st AllPanic)
    (hi' : ∀ r < p.roundsP, ∀ off s v st, N < off + ci → Rel off s v → I st →
      SpecE (fun i => int r (s i)) st AllPanic)
    {off : Nat} {s : ι → σ} {v : V} {st : ι → τ} (hle : off ≤ N)
    (hoff : N < off + (p.roundsFBeginning + p.roundsFEnd) * ce + p.roundsP * ci) (hs : Rel off s v)
    (hI : I st) : SpecE (fun i => rounds p ext int (s i)) st AllPanic := by
  have e : (p.roundsFBeginning + p.roundsFEnd) * ce = ce * p.roundsFBeginning + ce * p.roundsFEnd := by ring
  have e' : p.roundsP * ci = ci * p.roundsP := by ring
  unfold rounds
  by_cases h1 : off + ce * p.roundsFBeginning ≤ N
  · refine SpecE.bind (spec_loop (c := ce) (N := N) (f := fun _ s r => ext r s) (step := fun v r => ext' r v)
      (fun r hr => he r (by simp at hr; omega)) (by simpa using h1) hs hI) ?_
    rintro s1 st1 ⟨hs1, hI1⟩
    simp only [List.length_range] at hs1
    by_cases h2 : off + ce * p.roundsFBeginning + ci * p.roundsP ≤ N
    · refine SpecE.bind (spec_loop (c := ci) (N := N) (f := fun _ s r => int r s) (step := fun v r => int' r v)
        (fun r hr => hi r (by simpa using hr)) (by simpa using h2) hs1 hI1) ?_
      rintro s2 st2 ⟨hs2, hI2⟩
      simp only [List.length_range] at hs2
      exact specE_loop_exhausted (c := ce) (N := N) (f := fun _ s r => ext r s) (step := fun v r => ext' r v)
        (fun r hr => he r (by simp [List.mem_range'] at hr; omega))
        (fun r hr => he' r (by simp [List.mem_range'] at hr; omega)) h2 (by simp; omega) hs2 hI2
    · exact SpecE.bindPanic (specE_loop_exhausted (c := ci) (N := N) (f := fun _ s r => int r s)
        (step := fun v r => int' r v) (fun r hr => hi r (by simpa using hr))
        (fun r hr => hi' r (by simpa using hr)) h1 (by simp; omega) hs1 hI1)
  · exact SpecE.bindPanic (specE_loop_exhausted (c := ce) (N := N) (f := fun _ s r => ext r s)
      (step := fun v r => ext' r v) (fun r hr => he r (by simp at hr; omega))
      (fun r hr => he' r (by simp at hr; omega)) hle (by simp; omega) hs hI)

/-! Sequences of permutations -/

variable {X Y π τ : Type} {Rel : (ι → X) → Y → Prop} {Pre : Nat → (ι → π) → Prop} {I : (ι → τ) → Prop}
  {N c : Nat} {perm : X → π → MPC ι τ M Err (X × π)} {g : Y → Y}

theorem spec_permuteAll {xs : ι → List X} {vs : List Y}
    (h : ∀ off x v pre st, off + c ≤ N → v ∈ vs → Rel x v → Pre off pre → I st →
      Spec (fun i => perm (x i) (pre i)) st (fun s st' =>
        Rel (fun i => (s i).1) (g v) ∧ Pre (off + c) (fun i => (s i).2) ∧ I st'))
    {off : Nat} {pre : ι → π} {st : ι → τ} (hoff : off + c * vs.length ≤ N)
    (hx : Cols Rel xs vs) (hpre : Pre off pre) (hI : I st) :
    Spec (fun i => permuteAll perm (xs i) (pre i)) st (fun s st' =>
      Cols Rel (fun i => (s i).1) (vs.map g) ∧ Pre (off + c * vs.length) (fun i => (s i).2) ∧ I st') := by
  induction vs generalizing xs off pre st with
  | nil =>
    obtain ⟨l, rfl, hl⟩ := hx
    cases hl
    exact Spec.pure ⟨Cols.nil, hpre, hI⟩
  | cons v vs ih =>
    obtain ⟨x, xs, rfl, hx, hxs⟩ := Cols.uncons hx
    simp only [permuteAll]
    have e : off + c * (v :: vs).length = off + c + c * vs.length := by simp; ring
    rw [e] at hoff ⊢
    refine Spec.bind (h off x v pre st (by omega) (by simp) hx hpre hI) ?_
    rintro s st1 ⟨hy, hpre1, hI1⟩
    refine Spec.bind (ih (fun off x u pre st ho hu => h off x u pre st ho (by simp [hu])) hoff hxs hpre1 hI1) ?_
    rintro ys st2 ⟨hys, hpre2, hI2⟩
    exact Spec.pure ⟨Cols.cons hy hys, hpre2, hI2⟩

theorem specE_permuteAll {xs : ι → List X} {vs : List Y}
    (h : ∀ off x v pre st, off + c ≤ N → v ∈ vs → Rel x v → Pre off pre → I st →
      Spec (fun i => perm (x i) (pre i)) st (fun s st' =>
        Rel (fun i => (s i).1) (g v) ∧ Pre (off + c) (fun i => (s i).2) ∧ I st'))
    (h' : ∀ off x v pre st, off ≤ N → N < off + c → v ∈ vs → Rel x v → Pre off pre → I st →
      SpecE (fun i => perm (x i) (pre i)) st AllPanic)
    {off : Nat} {pre : ι → π} {st : ι → τ} (hle : off ≤ N) (hoff : N < off + c * vs.length)
    (hx : Cols Rel xs vs) (hpre : Pre off pre) (hI : I st) :
    SpecE (fun i => permuteAll perm (xs i) (pre i)) st AllPanic := by
  induction vs generalizing xs off pre st with
  | nil => simp at hoff; omega
  | cons v vs ih =>
    obtain ⟨x, xs, rfl, hx, hxs⟩ := Cols.uncons hx
    simp only [permuteAll]
    have e : off + c * (v :: vs).length = off + c + c * vs.length := by simp; ring
    rw [e] at hoff
    by_cases hc : off + c ≤ N
    · refine SpecE.bind (h off x v pre st hc (by simp) hx hpre hI) ?_
      rintro s st1 ⟨hy, hpre1, hI1⟩
      exact SpecE.bindPanic (ih (fun off x u pre st ho hu => h off x u pre st ho (by simp [hu]))
        (fun off x u pre st ho ho' hu => h' off x u pre st ho ho' (by simp [hu])) hc hoff hxs hpre1 hI1)
    · exact SpecE.bindPanic (h' off x v pre st hle (by omega) (by simp) hx hpre hI)

end

/-! States of two or three elements -/

theorem foldl_congr_inv {β : Type} {P : α → Prop} {f f' : α → β → α} {l : List β}
    (h : ∀ a, ∀ b ∈ l, P a → f a b = f' a b ∧ P (f a b)) {a : α} (ha : P a) :
    l.foldl f a = l.foldl f' a ∧ P (l.foldl f a) := by
  induction l generalizing a with
  | nil => exact ⟨rfl, ha⟩
  | cons b l ih =>
    obtain ⟨h1, h2⟩ := h a b (by simp) ha
    simp only [List.foldl_cons, ← h1]
    exact ih (fun a b hb => h a b (by simp [hb])) h2

theorem permutation_diagonal [CommRing F] {p : Params F} (hp : p.WF) (ht : p.t = 2 ∨ p.t = 3) (diag : List F)
    {x : List F} (hx : x.length = p.t) :
    permutation { p with diagM1 := diag } x = permutation p x := by
  have key : ∀ y : List F, y.length = p.t → matmulInternal p.diagM1 y = matmulInternal diag y := by
    intro y hy
    rw [← hy] at ht
    rcases y with _ | ⟨a, _ | ⟨b, _ | ⟨c, _ | ⟨d, r⟩⟩⟩⟩ <;> simp [matmulInternal] at ht ⊢
  have hs : ValidSize p.t := hp.size
  simp only [permutation, if_pos hs]
  rw [permutationRounds, permutationRounds, rounds_id, rounds_id, roundsPlain, roundsPlain]
  have he := @foldl_congr_inv (α := List F) (β := Nat) (P := fun y => y.length = p.t)
    (f := fun v r => externalRound p r v) (f' := fun v r => externalRound { p with diagM1 := diag } r v)
  obtain ⟨h1, h2⟩ := he (l := List.range p.roundsFBeginning) (fun a b hb ha =>
    ⟨rfl, length_externalRound hp (by simp at hb; omega) ha⟩) (length_first hp hx)
  obtain ⟨h3, h4⟩ := foldl_congr_inv (P := fun y : List F => y.length = p.t)
    (f := fun v r => internalRound p r v) (f' := fun v r => internalRound { p with diagM1 := diag } r v)
    (l := List.range p.roundsP) (fun a b hb ha =>
    ⟨key _ (by simp [addRcInternal, ha]), length_internalRound hp b ha⟩) h2
  obtain ⟨h5, -⟩ := he (l := List.range' p.roundsFBeginning p.roundsFEnd) (fun a b hb ha =>
    ⟨rfl, length_externalRound hp (by simp [List.mem_range'] at hb; omega) ha⟩) h4
  exact congrArg some (h5.trans (congrArg (List.foldl _ · _) (h3.trans (congrArg (List.foldl _ · _) h1)))).symm

theorem IsPrecomputed.slice_none [CommRing F] {P : (ι → S) → F → Prop} {pre : ι → Precomputations S} {rs : List F}
    {used : Nat} (h : IsPrecomputed P pre rs used) {k : Nat} (hk : rs.length < used + k) (i : ι) :
    (pre i).slice k = none := by
  have h1 := h.r.length i
  rw [Precomputations.slice, h.offset i, if_neg (by omega)]

section Rep3

variable [CommRing F] [Sample R F] [Codec M (List F)] {ty : A2BType} {st : PartyID → Rep3State R}
  {p : Params F} {rs : List F} {off k : Nat}

theorem specE_sboxPrecompRep3 {x : PartyID → List (Share F)} {v : List F}
    {pre : PartyID → Precomputations (Share F)} (hx : Cols IsShare x v)
    (hpre : IsPrecomputed (IsShare (G := F)) pre rs off) (hoff : rs.length < off + v.length) :
    SpecE (M := M) (fun i => sboxPrecompRep3 (x i) (pre i)) st AllPanic := by
  unfold sboxPrecompRep3
  simp only [hx.length, hpre.slice_none hoff, orPanic]
  exact SpecE.bindPanic specE_panic

theorem specE_sboxPrecompAdditive {x : PartyID → List F} {v : List F}
    {pre : PartyID → Precomputations F} (hx : Cols IsAdditive x v)
    (hpre : IsPrecomputed (IsAdditive (G := F)) pre rs off) (hoff : rs.length < off + v.length) :
    SpecE (M := M) (fun i => sboxPrecompAdditive (x i) (pre i)) st AllPanic := by
  unfold sboxPrecompAdditive
  simp only [hx.length, hpre.slice_none hoff, orPanic]
  exact SpecE.bindPanic specE_panic

theorem specE_permutationPrecomp (hp : p.WF) (hd : p.d = 5) {x : PartyID → List (Share F)} {v : List F}
    (hx : IsShares x v) (hv : v.length = p.t) {pre : PartyID → Precomputations (Share F)}
    (hpre : IsPrecomputed (IsShare (G := F)) pre rs off) (hle : off ≤ rs.length)
    (hoff : rs.length < off + p.numSbox) (hst : Corr ty st) :
    SpecE (M := M) (fun i => permutationPrecomp p (x i) (pre i)) st AllPanic := by
  simp only [permutationPrecomp, checked, if_pos (⟨hp.size, hd⟩ : ValidSize p.t ∧ p.d = 5)]
  refine specE_rounds_exhausted p (Rel := PreRel IsShare p.t rs) (I := Corr ty) (N := rs.length) (ce := p.t)
    (ci := 1)
    (ext := externalRoundPrecomp p) (int := internalRoundPrecomp p) (ext' := externalRound p)
    (int' := internalRound p)
    (fun r hr off s v st hoff h hst => spec_externalRoundPrecomp hp hd hr hoff h hst)
    (fun r hr off s v st hoff h hst => spec_internalRoundPrecomp hp hd hoff h hst)
    ?_ ?_ (s := fun i => (matmulExternal (x i), pre i)) (v := matmulExternal v) hle
    (by unfold Params.numSbox at hoff; omega)
    ⟨matmulExternal_rel linRel_isShare hp hx hv, length_first hp hv, hpre⟩ hst
  · rintro r hr off s v st hoff ⟨hs, hv, hpre⟩ hst
    refine SpecE.bind (Spec.netId (Q := fun r s => r = (fun i => i) ∧ s = st) ⟨rfl, rfl⟩) ?_
    rintro _ _ ⟨rfl, rfl⟩
    exact SpecE.bindPanic (specE_sboxPrecompRep3 (addRcExternalRep3_cols hp hr hs hv) hpre
      (by rw [length_addRcExternal hp hr hv]; omega))
  · rintro r hr off s v st hoff ⟨hs, hv, hpre⟩ hst
    refine SpecE.bind (Spec.netId (Q := fun r s => r = (fun i => i) ∧ s = st) ⟨rfl, rfl⟩) ?_
    rintro _ _ ⟨rfl, rfl⟩
    refine SpecE.bindPanic ?_
    have hx := addRcInternalRep3_cols p r hs
    have hl := length_addRcInternal p r v
    have hpos := t_pos hp
    generalize addRcInternal p r v = w at hx hl
    cases w with
    | nil => simp at hl; omega
    | cons a w =>
      obtain ⟨x0, xs, he, h0, -⟩ := Cols.uncons hx
      have he' : ∀ i, addRcInternalRep3 p r i (s i).1 = x0 i :: xs i := fun i => congrFun he i
      simp only [he', firstSboxPrecompRep3, hpre.slice_none hoff, orPanic]
      exact SpecE.bindPanic specE_panic

theorem specE_permutationAdditive (hp : p.WF) (hd : p.d = 5) {x : PartyID → List (Share F)} {v : List F}
    (hx : IsShares x v) (hv : v.length = p.t) {pre : PartyID → Precomputations F}
    (hpre : IsPrecomputed (IsAdditive (G := F)) pre rs off) (hle : off ≤ rs.length)
    (hoff : rs.length < off + p.numSbox) (hst : Corr ty st) :
    SpecE (M := M) (fun i => permutationAdditive p (x i) (pre i)) st AllPanic := by
  simp only [permutationAdditive, checked, if_pos (⟨hp.size, hd⟩ : ValidSize p.t ∧ p.d = 5)]
  have hxa : Cols (IsAdditive (G := F)) (fun i => (x i).map Share.a) v := by
    have := Cols.map (Q := IsAdditive (G := F)) (f := fun _ => Share.a) (g := fun v : F => v)
      (show Cols IsShare x v from hx) fun x v h => h.2
    rwa [List.map_id'] at this
  refine SpecE.bindPanic (specE_rounds_exhausted p (Rel := PreRel IsAdditive p.t rs) (I := Corr ty)
    (N := rs.length) (ce := p.t) (ci := 1)
    (ext := externalRoundPrecompAdditive p) (int := internalRoundPrecompAdditive p) (ext' := externalRound p)
    (int' := internalRound p)
    (fun r hr off s v st hoff h hst => spec_externalRoundPrecompAdditive hp hd hr hoff h hst)
    (fun r hr off s v st hoff h hst => spec_internalRoundPrecompAdditive hp hd hoff h hst)
    ?_ ?_ (s := fun i => (matmulExternal ((x i).map Share.a), pre i)) (v := matmulExternal v) hle
    (by unfold Params.numSbox at hoff; omega)
    ⟨matmulExternal_rel linRel_isAdditive hp hxa hv, length_first hp hv, hpre⟩ hst)
  · rintro r hr off s v st hoff ⟨hs, hv, hpre⟩ hst
    refine SpecE.bind (Spec.netId (Q := fun r s => r = (fun i => i) ∧ s = st) ⟨rfl, rfl⟩) ?_
    rintro _ _ ⟨rfl, rfl⟩
    exact SpecE.bindPanic (specE_sboxPrecompAdditive (addRcExternalAdditive_cols hp hr hs hv) hpre
      (by rw [length_addRcExternal hp hr hv]; omega))
  · rintro r hr off s v st hoff ⟨hs, hv, hpre⟩ hst
    refine SpecE.bind (Spec.netId (Q := fun r s => r = (fun i => i) ∧ s = st) ⟨rfl, rfl⟩) ?_
    rintro _ _ ⟨rfl, rfl⟩
    refine SpecE.bindPanic ?_
    have hx := addRcInternalAdditive_cols p r hs
    have hl := length_addRcInternal p r v
    have hpos := t_pos hp
    generalize addRcInternal p r v = w at hx hl
    cases w with
    | nil => simp at hl; omega
    | cons a w =>
      obtain ⟨x0, xs, he, h0, -⟩ := Cols.uncons hx
      have he' : ∀ i, onParty0 i (addRcInternal p r) (s i).1 = x0 i :: xs i := fun i => congrFun he i
      simp only [he', firstSboxPrecompAdditive, hpre.slice_none hoff, orPanic]
      exact SpecE.bindPanic specE_panic

theorem specE_permutationPacked (hp : p.WF) (hd : p.d = 5) {x : PartyID → List (Share F)} {v : List (List F)}
    (hx : IsShares x v.flatten) (hv : ∀ u ∈ v, u.length = p.t) {pre : PartyID → Precomputations (Share F)}
    (hpre : IsPrecomputed (IsShare (G := F)) pre rs off) (hle : off ≤ rs.length)
    (hoff : rs.length < off + p.numSbox * v.length) (hst : Corr ty st) :
    SpecE (M := M) (fun i => permutationPacked p (x i) (pre i)) st AllPanic := by
  have hlen : ∀ i, (x i).length % p.t = 0 := by
    intro i
    rw [Cols.length (P := IsShare) hx i, length_flatten_const hv]
    exact Nat.mul_mod_left _ _
  simp only [permutationPacked, checked, if_pos (⟨hp.size, hd⟩ : ValidSize p.t ∧ p.d = 5), hlen, ne_eq,
    not_true_eq_false, if_false]
  have e : (p.roundsFBeginning + p.roundsFEnd) * (v.length * p.t) + p.roundsP * v.length =
      p.numSbox * v.length := by
    unfold Params.numSbox; ring
  have hm := Cols.mapChunks (show Cols IsShare x v.flatten from hx) (t_pos hp) (f := fun i => matmulExternal)
    (g := matmulExternal) (fun y ws hl hy => matmulExternal_rel linRel_isShare hp hy hl)
  rw [mapChunks_flatten (t_pos hp) hv] at hm
  refine specE_rounds_exhausted p (Rel := PackRel IsShare p.t v.length rs) (I := Corr ty) (N := rs.length)
    (ce := v.length * p.t) (ci := v.length)
    (ext := externalRoundPrecompPacked p) (int := internalRoundPrecompPacked p)
    (ext' := fun r v => v.map (externalRound p r)) (int' := fun r v => v.map (internalRound p r))
    (fun r hr off s v st hoff h hst => spec_externalRoundPrecompPacked hp hd hr hoff h hst)
    (fun r hr off s v st hoff h hst => spec_internalRoundPrecompPacked hp hd hoff h hst)
    ?_ ?_ (s := fun i => (mapChunks matmulExternal p.t (x i), pre i)) (v := v.map matmulExternal)
    hle (by omega)
    ⟨hm, ⟨by
      intro u hu
      obtain ⟨w, hw, rfl⟩ := List.mem_map.mp hu
      exact length_first hp (hv w hw), by simp⟩, hpre⟩ hst
  · rintro r hr off s w st hoff ⟨hs, ⟨hw, hk⟩, hpre⟩ hst
    refine SpecE.bind (Spec.netId (Q := fun r s => r = (fun i => i) ∧ s = st) ⟨rfl, rfl⟩) ?_
    rintro _ _ ⟨rfl, rfl⟩
    have hrc := Cols.mapChunks hs (t_pos hp) (f := fun i => addRcExternalRep3 p r i) (g := addRcExternal p r)
      (fun y ws hl hy => addRcExternalRep3_cols hp hr hy hl)
    rw [mapChunks_flatten (t_pos hp) hw] at hrc
    refine SpecE.bindPanic (specE_sboxPrecompRep3 hrc hpre ?_)
    rw [length_flatten_const (t := p.t) (by
      intro u hu
      obtain ⟨w', hw', rfl⟩ := List.mem_map.mp hu
      exact length_addRcExternal hp hr (hw w' hw')), List.length_map, hk]
    exact hoff
  · rintro r hr off s w st hoff ⟨hs, ⟨hw, hk⟩, hpre⟩ hst
    refine SpecE.bind (Spec.netId (Q := fun r s => r = (fun i => i) ∧ s = st) ⟨rfl, rfl⟩) ?_
    rintro _ _ ⟨rfl, rfl⟩
    have hrc := Cols.mapChunks hs (t_pos hp) (f := fun i => addRcInternalRep3 p r i) (g := addRcInternal p r)
      (fun y ws hl hy => addRcInternalRep3_cols p r hy)
    rw [mapChunks_flatten (t_pos hp) hw] at hrc
    have hrl : ∀ u ∈ w.map (addRcInternal p r), u.length = p.t := by
      intro u hu
      obtain ⟨w', hw', rfl⟩ := List.mem_map.mp hu
      rw [length_addRcInternal, hw w' hw']
    have hst1 := Cols.stepBy hrc p.t
    rw [stepBy_flatten (t_pos hp) hrl] at hst1
    refine SpecE.bindPanic (SpecE.bindPanic (specE_sboxPrecompRep3 hst1 hpre ?_))
    rw [List.flatMap_def, length_flatten_const (t := 1), List.length_map, List.length_map, hk, Nat.mul_one]
    · exact hoff
    · intro u hu
      obtain ⟨w', hw', rfl⟩ := List.mem_map.mp hu
      have := hrl w' hw'
      have := t_pos hp
      simp; omega

end Rep3

section Shamir

open Shamir

variable {n : Nat} [Field F] [Sample R F] [Codec M F] [Codec M (List F)] {t : Nat}
  {st : Fin n → ShamirState n R F} {p : Params F} {rs : List F} {off k : Nat}

theorem specE_sboxPrecompShamir {x : Fin n → List F} {v : List F}
    {pre : Fin n → Precomputations F} (hx : Cols (IsShamir (V := F) F t) x v)
    (hpre : IsPrecomputed (IsShamir (V := F) F t) pre rs off) (hoff : rs.length < off + v.length) :
    SpecE (M := M) (fun i => sboxPrecompShamir (x i) (pre i)) st AllPanic := by
  unfold sboxPrecompShamir
  simp only [hx.length, hpre.slice_none hoff, orPanic]
  exact SpecE.bindPanic specE_panic

theorem specE_permutationPrecompShamir (hp : p.WF) (hd : p.d = 5) {x : Fin n → List F} {v : List F}
    (hx : IsShamirs F t x v) (hv : v.length = p.t) {pre : Fin n → Precomputations F}
    (hpre : IsPrecomputed (IsShamir (V := F) F t) pre rs off) (hle : off ≤ rs.length)
    (hoff : rs.length < off + p.numSbox) (hst : ShCorr t st) :
    SpecE (M := M) (fun i => permutationPrecompShamir p (x i) (pre i)) st AllPanic := by
  simp only [permutationPrecompShamir, checked, if_pos (⟨hp.size, hd⟩ : ValidSize p.t ∧ p.d = 5)]
  refine specE_rounds_exhausted p (Rel := PreRel (IsShamir (V := F) F t) p.t rs) (I := ShCorr t)
    (N := rs.length) (ce := p.t) (ci := 1)
    (ext := externalRoundPrecompShamir p) (int := internalRoundPrecompShamir p) (ext' := externalRound p)
    (int' := internalRound p)
    (fun r hr off s v st hoff h hst => spec_externalRoundPrecompShamir hp hd hr hoff h hst)
    (fun r hr off s v st hoff h hst => spec_internalRoundPrecompShamir hp hd hoff h hst)
    ?_ ?_ (s := fun i => (matmulExternal (x i), pre i)) (v := matmulExternal v) hle
    (by unfold Params.numSbox at hoff; omega)
    ⟨matmulExternal_rel linRel_isShamir hp hx hv, length_first hp hv, hpre⟩ hst
  · rintro r hr off s v st hoff ⟨hs, hv, hpre⟩ hst
    exact SpecE.bindPanic (specE_sboxPrecompShamir (addRcExternalShamir_cols p r hs) hpre
      (by rw [length_addRcExternal hp hr hv]; omega))
  · rintro r hr off s v st hoff ⟨hs, hv, hpre⟩ hst
    refine SpecE.bindPanic ?_
    have hx := addRcInternalShamir_cols p r hs
    have hl := length_addRcInternal p r v
    have hpos := t_pos hp
    generalize addRcInternal p r v = w at hx hl
    cases w with
    | nil => simp at hl; omega
    | cons a w =>
      obtain ⟨x0, xs, he, h0, -⟩ := Cols.uncons hx
      have he' : ∀ i, addRcInternal p r (s i).1 = x0 i :: xs i := fun i => congrFun he i
      simp only [he', firstSboxPrecompShamir, hpre.slice_none hoff, orPanic]
      exact SpecE.bindPanic specE_panic

theorem specE_permutationPackedShamir (hp : p.WF) (hd : p.d = 5) {x : Fin n → List F} {v : List (List F)}
    (hx : IsShamirs F t x v.flatten) (hv : ∀ u ∈ v, u.length = p.t) {pre : Fin n → Precomputations F}
    (hpre : IsPrecomputed (IsShamir (V := F) F t) pre rs off) (hle : off ≤ rs.length)
    (hoff : rs.length < off + p.numSbox * v.length) (hst : ShCorr t st) :
    SpecE (M := M) (fun i => permutationPackedShamir p (x i) (pre i)) st AllPanic := by
  have hlen : ∀ i, (x i).length % p.t = 0 := by
    intro i
    rw [Cols.length (P := IsShamir (V := F) F t) hx i, length_flatten_const hv]
    exact Nat.mul_mod_left _ _
  simp only [permutationPackedShamir, checked, if_pos (⟨hp.size, hd⟩ : ValidSize p.t ∧ p.d = 5), hlen, ne_eq,
    not_true_eq_false, if_false]
  have e : (p.roundsFBeginning + p.roundsFEnd) * (v.length * p.t) + p.roundsP * v.length =
      p.numSbox * v.length := by
    unfold Params.numSbox; ring
  have hm := Cols.mapChunks (show Cols (IsShamir (V := F) F t) x v.flatten from hx) (t_pos hp)
    (f := fun i => matmulExternal)
    (g := matmulExternal) (fun y ws hl hy => matmulExternal_rel linRel_isShamir hp hy hl)
  rw [mapChunks_flatten (t_pos hp) hv] at hm
  refine specE_rounds_exhausted p (Rel := PackRel (IsShamir (V := F) F t) p.t v.length rs) (I := ShCorr t)
    (N := rs.length) (ce := v.length * p.t) (ci := v.length)
    (ext := externalRoundPackedShamir p) (int := internalRoundPackedShamir p)
    (ext' := fun r v => v.map (externalRound p r)) (int' := fun r v => v.map (internalRound p r))
    (fun r hr off s v st hoff h hst => spec_externalRoundPackedShamir hp hd hr hoff h hst)
    (fun r hr off s v st hoff h hst => spec_internalRoundPackedShamir hp hd hoff h hst)
    ?_ ?_ (s := fun i => (mapChunks matmulExternal p.t (x i), pre i)) (v := v.map matmulExternal)
    hle (by omega)
    ⟨hm, ⟨by
      intro u hu
      obtain ⟨w, hw, rfl⟩ := List.mem_map.mp hu
      exact length_first hp (hv w hw), by simp⟩, hpre⟩ hst
  · rintro r hr off s w st hoff ⟨hs, ⟨hw, hk⟩, hpre⟩ hst
    have hrc := Cols.mapChunks hs (t_pos hp) (f := fun _ => addRcExternal p r) (g := addRcExternal p r)
      (fun y ws hl hy => addRcExternalShamir_cols p r hy)
    rw [mapChunks_flatten (t_pos hp) hw] at hrc
    refine SpecE.bindPanic (specE_sboxPrecompShamir hrc hpre ?_)
    rw [length_flatten_const (t := p.t) (by
      intro u hu
      obtain ⟨w', hw', rfl⟩ := List.mem_map.mp hu
      exact length_addRcExternal hp hr (hw w' hw')), List.length_map, hk]
    exact hoff
  · rintro r hr off s w st hoff ⟨hs, ⟨hw, hk⟩, hpre⟩ hst
    have hrc := Cols.mapChunks hs (t_pos hp) (f := fun _ => addRcInternal p r) (g := addRcInternal p r)
      (fun y ws hl hy => addRcInternalShamir_cols p r hy)
    rw [mapChunks_flatten (t_pos hp) hw] at hrc
    have hrl : ∀ u ∈ w.map (addRcInternal p r), u.length = p.t := by
      intro u hu
      obtain ⟨w', hw', rfl⟩ := List.mem_map.mp hu
      rw [length_addRcInternal, hw w' hw']
    have hst1 := Cols.stepBy hrc p.t
    rw [stepBy_flatten (t_pos hp) hrl] at hst1
    refine SpecE.bindPanic (SpecE.bindPanic (specE_sboxPrecompShamir hst1 hpre ?_))
    rw [List.flatMap_def, length_flatten_const (t := 1), List.length_map, List.length_map, hk, Nat.mul_one]
    · exact hoff
    · intro u hu
      obtain ⟨w', hw', rfl⟩ := List.mem_map.mp hu
      have := hrl w' hw'
      have := t_pos hp
      simp; omega

end Shamir

end Poseidon2
end Verif
