import Verif.Gadgets.Poseidon2Plain
import Verif.Rep3.ArithLemmas

/-!
# Poseidon2 on replicated and additive shares
-/

namespace Verif.Poseidon2

open PartyID

variable {ι F S R M α : Type} [CommRing F]

/-! ### Common to all sharings -/

section Common

variable [Add S] [HMul S F S] {P : (ι → S) → F → Prop}

/-- One state and the precomputations. -/
def PreRel (P : (ι → S) → F → Prop) (t : Nat) (rs : List F) (off : Nat) (s : ι → List S × Precomputations S)
    (v : List F) : Prop :=
  Cols P (fun i => (s i).1) v ∧ v.length = t ∧ IsPrecomputed P (fun i => (s i).2) rs off

/-- Several states in one vector and the precomputations. -/
def PackRel (P : (ι → S) → F → Prop) (t k : Nat) (rs : List F) (off : Nat) (s : ι → List S × Precomputations S)
    (v : List (List F)) : Prop :=
  Cols P (fun i => (s i).1) v.flatten ∧ ((∀ u ∈ v, u.length = t) ∧ v.length = k) ∧
    IsPrecomputed P (fun i => (s i).2) rs off

/-- One state without precomputations. -/
def StateRel (P : (ι → S) → F → Prop) (t : Nat) (_ : Nat) (s : ι → List S) (v : List F) : Prop :=
  Cols P s v ∧ v.length = t

omit [Add S] [HMul S F S] in
theorem Cols.const (ws : List α) : Cols (fun (x : ι → α) v => x = fun _ => v) (fun _ => ws) ws := by
  refine ⟨ws.map fun w _ => w, ?_, ?_⟩
  · funext i; rw [List.map_map]; exact (List.map_id _).symm
  · rw [List.forall₂_map_left_iff]; exact List.forall₂_same.mpr fun _ _ => rfl

theorem length_flatten_const {v : List (List α)} {t : Nat} (h : ∀ u ∈ v, u.length = t) :
    v.flatten.length = v.length * t := by
  rw [List.length_flatten, List.map_congr_left h, List.map_const', List.sum_replicate]
  simp

theorem sbox_map {d : Nat} (hd : d = 5) (v : List F) : v.map (singleSbox d) = v.map (· ^ 5) := by
  subst hd
  exact List.map_congr_left fun x _ => singleSbox_eq 5 x

/-- Adding the constants of a round to every state of a vector, and mixing every state. -/
theorem packed_map {v : List (List F)} {t : Nat} (ht : 0 < t) (h : ∀ u ∈ v, u.length = t)
    (f : List F → List F) : mapChunks f t v.flatten = (v.map f).flatten :=
  mapChunks_flatten ht h

theorem matmulExternal_rel (hP : LinRel P) {p : Params F} (hp : p.WF) {x : ι → List S} {v : List F}
    (hx : Cols P x v) (hv : v.length = p.t) : Cols P (fun i => matmulExternal (x i)) (matmulExternal v) :=
  matmulExternal_cols hP hx (by rw [hv]; exact ValidSize.two_le hp.size)

theorem matmulInternal_rel (hP : LinRel P) {p : Params F} (hp : p.WF) {x : ι → List S} {v : List F}
    (hx : Cols P x v) (hv : v.length = p.t) :
    Cols P (fun i => matmulInternal p.diagM1 (x i)) (matmulInternal p.diagM1 v) :=
  matmulInternal_cols hP _ hx (by rw [hv]; exact ValidSize.two_le hp.size)

theorem length_first {p : Params F} (hp : p.WF) {v : List F} (hv : v.length = p.t) :
    (matmulExternal v).length = p.t := by
  rw [length_matmulExternal (by rw [hv]; exact hp.size), hv]

theorem t_pos {p : Params F} (hp : p.WF) : 0 < p.t := by
  have := ValidSize.two_le hp.size
  omega

/-- A vector of `t k` elements with a value for every position is a vector of `k` states. -/
theorem permutationRounds_eq (p : Params F) (v : List F) :
    permutationRounds p v = roundsPlain p (externalRound p) (internalRound p) v := rounds_id p _ _ v

end Common

/-! ### Replicated shares -/

section Rep3

variable [Sample R F] [Codec M (List F)] {ty : A2BType} {st : PartyID → Rep3State R}

omit [Sample R F] [Codec M (List F)] in
theorem linRel_isShare : LinRel (F := F) (IsShare (G := F)) where
  add := IsShare.add
  scale c h := h.scale c

omit [Sample R F] [Codec M (List F)] in
theorem linRel_isAdditive : LinRel (F := F) (IsAdditive (G := F)) where
  add h h' := by unfold IsAdditive at *; rw [← h, ← h']; ring
  scale c h := by unfold IsAdditive at *; rw [← h]; ring

theorem spec_precomputeRep3 {K : Type} [Field K] [Sample R K] [Codec M (List K)] {p : Params K} (hd : p.d = 5)
    (num : Nat) (hst : Corr ty st) :
    Spec (M := M) (fun _ => precomputeRep3 p num) st (fun pre st' =>
      (∃ rs : List K, rs.length = p.numSbox * num ∧ IsPrecomputed (IsShare (G := K)) pre rs 0) ∧ Corr ty st') := by
  unfold precomputeRep3
  simp only [hd, ne_eq, not_true_eq_false, ↓reduceIte]
  refine Spec.bind (Rep3.spec_rands _ hst) ?_
  rintro r st1 ⟨hr, hst1⟩
  have hl := Rep3.randValues_length (F := K) (p.numSbox * num) st
  generalize Rep3.randValues K (p.numSbox * num) st = rs at hr hl
  refine Spec.bind (Rep3.spec_mulVec hr hr hst1) ?_
  rintro r2 st2 ⟨hr2, hst2⟩
  have e2 : List.zipWith (· * ·) rs rs = rs.map (· ^ 2) := by
    rw [List.zipWith_self]; exact List.map_congr_left fun x _ => by ring
  rw [e2] at hr2
  refine Spec.bind (Rep3.spec_mulVec hr2 hr2 hst2) ?_
  rintro r4 st4 ⟨hr4, hst4⟩
  have e4 : List.zipWith (· * ·) (rs.map (· ^ 2)) (rs.map (· ^ 2)) = rs.map (· ^ 4) := by
    rw [List.zipWith_self, List.map_map]; exact List.map_congr_left fun x _ => by simp; ring
  rw [e4] at hr4
  refine Spec.bind (Rep3.spec_mulVec (Cols.append (P := IsShare) hr hr)
    (Cols.append (P := IsShare) hr2 hr4) hst4) ?_
  rintro r35 st5 ⟨hr35, hst5⟩
  have e35 : List.zipWith (· * ·) (rs ++ rs) (rs.map (· ^ 2) ++ rs.map (· ^ 4)) =
      rs.map (· ^ 3) ++ rs.map (· ^ 5) := by
    rw [List.zipWith_append (by simp)]
    have a : ∀ k, List.zipWith (· * ·) rs (rs.map (· ^ k)) = rs.map (· ^ (k + 1)) := by
      intro k
      rw [List.zipWith_map_right, List.zipWith_self]
      exact List.map_congr_left fun x _ => by ring
    rw [a 2, a 4]
  rw [e35] at hr35
  have h3 := Cols.take (P := IsShare) hr35 (p.numSbox * num)
  have h5 := Cols.drop (P := IsShare) hr35 (p.numSbox * num)
  rw [List.take_left' (by simp [hl])] at h3
  rw [List.drop_left' (by simp [hl])] at h5
  exact Spec.pure ⟨⟨rs, hl, hr, hr2, h3, hr4, h5, fun _ => rfl⟩, hst5⟩

omit [Sample R F] [Codec M (List F)] in
theorem IsPrecomputed.additive {pre : PartyID → Precomputations (Share F)} {rs : List F} {k : Nat}
    (h : IsPrecomputed (IsShare (G := F)) pre rs k) :
    IsPrecomputed (IsAdditive (G := F)) (fun i => ⟨(pre i).r.map Share.a, (pre i).r2.map Share.a,
      (pre i).r3.map Share.a, (pre i).r4.map Share.a, (pre i).r5.map Share.a, (pre i).offset⟩) rs k := by
  have a : ∀ {x : PartyID → List (Share F)} {vs : List F}, Cols IsShare x vs →
      Cols IsAdditive (fun i => (x i).map Share.a) vs := by
    intro x vs hx
    have := Cols.map (Q := IsAdditive (G := F)) (f := fun _ => Share.a) (g := fun v : F => v) hx fun x v h => h.2
    rwa [List.map_id'] at this
  exact ⟨a h.r, a h.r2, a h.r3, a h.r4, a h.r5, h.offset⟩

theorem spec_precomputeRep3Additive {K : Type} [Field K] [Sample R K] [Codec M (List K)] {p : Params K} (hd : p.d = 5) (num : Nat) (hst : Corr ty st) :
    Spec (M := M) (fun _ => precomputeRep3Additive p num) st (fun pre st' =>
      (∃ rs : List K, rs.length = p.numSbox * num ∧ IsPrecomputed (IsAdditive (G := K)) pre rs 0) ∧
        Corr ty st') := by
  refine Spec.bind (spec_precomputeRep3 hd num hst) ?_
  rintro pre st' ⟨⟨rs, hl, h⟩, hst'⟩
  exact Spec.pure ⟨⟨rs, hl, h.additive⟩, hst'⟩

/-! Constants -/

omit [Sample R F] [Codec M (List F)] in
theorem addRcExternalRep3_cols {p : Params F} (hp : p.WF) {r : Nat}
    (hr : r < p.roundsFBeginning + p.roundsFEnd) {x : PartyID → List (Share F)} {v : List F}
    (hx : Cols IsShare x v) (hv : v.length = p.t) :
    Cols IsShare (fun i => addRcExternalRep3 p r i (x i)) (addRcExternal p r v) := by
  have hr' : r < p.rcExternal.length := by rw [hp.external]; exact hr
  have hl := hp.constants _ (List.getElem_mem hr')
  have h := Cols.zipWith (f := fun i s c => Rep3.addPublic s c i) (g := fun v c : F => v + c)
    (W := IsShare (G := F)) hx (Cols.const (p.rcExternal.getD r [])) (fun x v y u hx hy => by
      subst hy; exact hx.addPublic u)
  refine cast ?_ h
  congr 1
  funext i
  cases i
  · rfl
  · rfl
  · have e : p.rcExternal.getD r [] = p.rcExternal[r] := by simp [List.getElem?_eq_getElem hr']
    simp only [addRcExternalRep3, e]
    have hx2 := hx.length ID2
    have : List.zipWith (fun (s : Share F) (_ : F) => s) (x ID2) p.rcExternal[r] = x ID2 := by
      rw [← List.map_uncurry_zip_eq_zipWith]
      exact List.map_fst_zip (by omega)
    exact this

omit [Sample R F] [Codec M (List F)] in
theorem addRcInternalRep3_cols (p : Params F) (r : Nat) {x : PartyID → List (Share F)} {v : List F}
    (hx : Cols IsShare x v) : Cols IsShare (fun i => addRcInternalRep3 p r i (x i)) (addRcInternal p r v) := by
  have h := onFirst_cols (f := fun i s => Rep3.addPublic s (p.rcInternal.getD r 0) i)
    (g := (· + p.rcInternal.getD r 0)) hx fun x v h => h.addPublic _
  refine cast ?_ h
  congr 1
  funext i
  cases i
  · rfl
  · rfl
  · cases hx2 : x ID2 <;> simp [addRcInternalRep3, hx2, onFirst, Rep3.addPublic]

omit [Sample R F] [Codec M (List F)] in
theorem addRcExternalAdditive_cols {p : Params F} (hp : p.WF) {r : Nat}
    (hr : r < p.roundsFBeginning + p.roundsFEnd) {x : PartyID → List F} {v : List F}
    (hx : Cols IsAdditive x v) (hv : v.length = p.t) :
    Cols IsAdditive (fun i => onParty0 i (addRcExternal p r) (x i)) (addRcExternal p r v) := by
  have hr' : r < p.rcExternal.length := by rw [hp.external]; exact hr
  have hl := hp.constants _ (List.getElem_mem hr')
  have h := Cols.zipWith (f := fun i (s c : F) => if i = ID0 then s + c else s) (g := fun v c : F => v + c)
    (W := IsAdditive (G := F)) hx (Cols.const (p.rcExternal.getD r [])) (fun x v y u hx hy => by
      subst hy
      unfold IsAdditive at *
      rw [← hx]
      simp
      ring)
  refine cast ?_ h
  congr 1
  have e : p.rcExternal.getD r [] = p.rcExternal[r] := by simp [List.getElem?_eq_getElem hr']
  funext i
  have hxi := hx.length i
  have : List.zipWith (fun (s : F) (_ : F) => s) (x i) p.rcExternal[r] = x i := by
    rw [← List.map_uncurry_zip_eq_zipWith]
    exact List.map_fst_zip (by omega)
  rw [e]
  cases i
  · simp [onParty0, addRcExternal, List.getElem?_eq_getElem hr']
  · simpa [onParty0] using this
  · simpa [onParty0] using this

omit [Sample R F] [Codec M (List F)] in
theorem addRcInternalAdditive_cols (p : Params F) (r : Nat) {x : PartyID → List F} {v : List F}
    (hx : Cols IsAdditive x v) :
    Cols IsAdditive (fun i => onParty0 i (addRcInternal p r) (x i)) (addRcInternal p r v) := by
  have h := onFirst_cols (f := fun i (s : F) => if i = ID0 then s + p.rcInternal.getD r 0 else s)
    (g := (· + p.rcInternal.getD r 0)) hx fun x v h => by
      unfold IsAdditive at *
      rw [← h]
      simp
      ring
  refine cast ?_ h
  congr 1
  funext i
  cases i
  · rfl
  · cases hx2 : x ID1 <;> simp [onParty0, onFirst]
  · cases hx2 : x ID2 <;> simp [onParty0, onFirst]

/-! S-boxes with precomputations -/

omit [Sample R F] [Codec M (List F)] in
theorem sboxPostRep3_share (y : F) {q : PartyID → Share F × Share F × Share F × Share F × Share F} {ρ : F}
    (hq : PowRel IsShare q ρ) : IsShare (fun i => sboxPostRep3 y (q i) i) ((y + ρ) ^ 5) := by
  obtain ⟨h1, h2, h3, h4, h5⟩ := hq
  have h := ((((h5.add (h4.scale (5 * y))).add (h3.scale (10 * (y * y)))).add
    (h2.scale (10 * (y * y * y)))).add (h1.scale (5 * (y * y * (y * y))))).addPublic (y * y * (y * y) * y)
  refine cast ?_ h
  have e : (fun i => sboxPostRep3 y (q i) i) = fun i => Rep3.addPublic
        ((q i).2.2.2.2 + (q i).2.2.2.1.scale (5 * y) + (q i).2.2.1.scale (10 * (y * y)) +
            (q i).2.1.scale (10 * (y * y * y)) + (q i).1.scale (5 * (y * y * (y * y))))
        (y * y * (y * y) * y) i := by
    funext i
    cases i <;> rfl
  rw [e]
  congr 1
  ring

omit [Sample R F] [Codec M (List F)] in
theorem sboxPostAdditive_share (y : F) {q : PartyID → F × F × F × F × F} {ρ : F}
    (hq : PowRel IsAdditive q ρ) : IsAdditive (fun i => sboxPostAdditive y (q i) i) ((y + ρ) ^ 5) := by
  obtain ⟨h1, h2, h3, h4, h5⟩ := hq
  unfold IsAdditive at *
  simp only [sboxPostAdditive, if_true, reduceCtorEq, if_false]
  linear_combination h5 + 5 * y * h4 + 10 * y ^ 2 * h3 + 10 * y ^ 3 * h2 + 5 * y ^ 4 * h1

theorem spec_sboxPrecompRep3 {x : PartyID → List (Share F)} {v : List F}
    {pre : PartyID → Precomputations (Share F)} {rs : List F} {off : Nat} (hx : Cols IsShare x v)
    (hpre : IsPrecomputed (IsShare (G := F)) pre rs off) (hoff : off + v.length ≤ rs.length)
    (hst : Corr ty st) :
    Spec (M := M) (fun i => sboxPrecompRep3 (x i) (pre i)) st (fun s st' =>
      (Cols IsShare (fun i => (s i).1) (v.map (· ^ 5)) ∧
        IsPrecomputed (IsShare (G := F)) (fun i => (s i).2) rs (off + v.length)) ∧ Corr ty st') := by
  obtain ⟨q, hq, hqs⟩ := hpre.slice hoff
  unfold sboxPrecompRep3
  simp only [hx.length, hq, orPanic, pure_bind]
  have hd := Cols.zipWith (f := fun _ a (q : Share F × _) => a - q.1) (g := fun v ρ : F => v - ρ)
    (W := IsShare (G := F)) hx hqs (fun x v y u hx hy => hx.sub hy.1)
  refine Spec.bind (Rep3.spec_openVec hd) ?_
  rintro _ _ ⟨rfl, rfl⟩
  refine Spec.bind (Spec.netId (Q := fun r s => r = (fun i => i) ∧ Corr ty s) ⟨rfl, hst⟩) ?_
  rintro _ _ ⟨rfl, hst⟩
  refine Spec.pure ⟨⟨?_, hpre.advance _⟩, hst⟩
  have := Cols.zipWith (f := fun i y q => sboxPostRep3 y q i) (g := fun y ρ : F => (y + ρ) ^ 5)
    (W := IsShare (G := F)) (Cols.const (List.zipWith (fun v ρ : F => v - ρ) v ((rs.drop off).take v.length)))
    hqs (fun x v y u hx hy => by subst hx; exact sboxPostRep3_share v hy)
  rw [powers_value (by simp; omega)] at this
  exact this

theorem spec_sboxPrecompAdditive {x : PartyID → List F} {v : List F}
    {pre : PartyID → Precomputations F} {rs : List F} {off : Nat} (hx : Cols IsAdditive x v)
    (hpre : IsPrecomputed (IsAdditive (G := F)) pre rs off) (hoff : off + v.length ≤ rs.length)
    (hst : Corr ty st) :
    Spec (M := M) (fun i => sboxPrecompAdditive (x i) (pre i)) st (fun s st' =>
      (Cols IsAdditive (fun i => (s i).1) (v.map (· ^ 5)) ∧
        IsPrecomputed (IsAdditive (G := F)) (fun i => (s i).2) rs (off + v.length)) ∧ Corr ty st') := by
  obtain ⟨q, hq, hqs⟩ := hpre.slice hoff
  unfold sboxPrecompAdditive
  simp only [hx.length, hq, orPanic, pure_bind]
  have hd := Cols.zipWith (f := fun _ a (q : F × _) => a - q.1) (g := fun v ρ : F => v - ρ)
    (W := IsAdditive (G := F)) hx hqs (fun x v y u hx hy => by
      have := hy.1
      unfold IsAdditive at *; rw [← hx, ← this]; ring)
  refine Spec.bind (Spec.netId (Q := fun r s => r = (fun i => i) ∧ s = st) ⟨rfl, rfl⟩) ?_
  rintro _ _ ⟨rfl, rfl⟩
  refine Spec.bind Rep3.spec_broadcastMany ?_
  rintro _ _ ⟨rfl, rfl⟩
  refine Spec.pure ⟨⟨?_, hpre.advance _⟩, hst⟩
  generalize hd' : (fun i => List.zipWith (fun a (q : F × _) => a - q.1) (x i) (q i)) = d at hd
  have hdi : ∀ i, List.zipWith (fun a (q : F × _) => a - q.1) (x i) (q i) = d i := fun i => congrFun hd' i
  have hy : ∀ i, List.zipWith (fun b ci : F => b + ci) (d i.prev) (List.zipWith (fun c i => c + i) (d i.next) (d i)) =
      List.zipWith (fun v ρ : F => v - ρ) v ((rs.drop off).take v.length) := by
    generalize List.zipWith (fun v ρ : F => v - ρ) v ((rs.drop off).take v.length) = w at hd
    clear hd' hdi
    obtain ⟨l, rfl, hl⟩ := hd
    intro i
    induction hl with
    | nil => rfl
    | @cons a b l w h hl ih =>
      simp only [List.map_cons, List.zipWith_cons_cons, ih]
      congr 1
      unfold IsAdditive at h
      rw [← h]
      cases i <;> simp [PartyID.prev, PartyID.next] <;> ring
  have := Cols.zipWith (f := fun i y q => sboxPostAdditive y q i) (g := fun y ρ : F => (y + ρ) ^ 5)
    (W := IsAdditive (G := F)) (Cols.const (List.zipWith (fun v ρ : F => v - ρ) v ((rs.drop off).take v.length)))
    hqs (fun x v y u hx hy => by subst hx; exact sboxPostAdditive_share v hy)
  rw [powers_value (by simp; omega)] at this
  simp only [hdi, hy]
  exact this

omit [Sample R F] [Codec M (List F)] in
theorem one_slice {P : (ι → S) → F → Prop} {pre : ι → Precomputations S} {rs : List F} {off : Nat}
    (hpre : IsPrecomputed P pre rs off) (hoff : off + 1 ≤ rs.length) :
    ∃ q ρ, (∀ i, (pre i).slice 1 = some [q i]) ∧ PowRel P q ρ := by
  obtain ⟨q, hq, hqs⟩ := hpre.slice hoff
  have hl : ((rs.drop off).take 1).length = 1 := by simp; omega
  generalize (rs.drop off).take 1 = l at hqs hl
  match l, hl with
  | [ρ], _ =>
    obtain ⟨q0, qs, rfl, h0, hs⟩ := Cols.uncons hqs
    refine ⟨q0, ρ, fun i => ?_, h0⟩
    have := hs.length i
    simp only [hq i, show qs i = [] from List.length_eq_zero_iff.mp this]

theorem spec_firstSboxPrecompRep3 {x : PartyID → List (Share F)} {v : List F}
    {pre : PartyID → Precomputations (Share F)} {rs : List F} {off : Nat} (hx : Cols IsShare x v)
    (hv : 0 < v.length)
    (hpre : IsPrecomputed (IsShare (G := F)) pre rs off) (hoff : off + 1 ≤ rs.length)
    (hst : Corr ty st) :
    Spec (M := M) (fun i => firstSboxPrecompRep3 (x i) (pre i)) st (fun s st' =>
      (Cols IsShare (fun i => (s i).1) (onFirst (· ^ 5) v) ∧
        IsPrecomputed (IsShare (G := F)) (fun i => (s i).2) rs (off + 1)) ∧ Corr ty st') := by
  cases v with
  | nil => simp at hv
  | cons a v =>
    obtain ⟨x0, xs, rfl, h0, hs⟩ := Cols.uncons hx
    obtain ⟨q, ρ, hq, hqs⟩ := one_slice hpre hoff
    simp only [firstSboxPrecompRep3, hq, orPanic, oneEntry, pure_bind]
    refine Spec.bind (Spec.netId (Q := fun r s => r = (fun i => i) ∧ s = st) ⟨rfl, rfl⟩) ?_
    rintro _ _ ⟨rfl, rfl⟩
    refine Spec.bind (Rep3.spec_open (h0.sub hqs.1)) ?_
    rintro _ _ ⟨rfl, rfl⟩
    refine Spec.pure ⟨⟨?_, hpre.advance _⟩, hst⟩
    have := sboxPostRep3_share (a - ρ) hqs
    rw [sub_add_cancel] at this
    exact Cols.cons this hs

theorem spec_firstSboxPrecompAdditive {x : PartyID → List F} {v : List F}
    {pre : PartyID → Precomputations F} {rs : List F} {off : Nat} (hx : Cols IsAdditive x v)
    (hv : 0 < v.length)
    (hpre : IsPrecomputed (IsAdditive (G := F)) pre rs off) (hoff : off + 1 ≤ rs.length)
    (hst : Corr ty st) :
    Spec (M := M) (fun i => firstSboxPrecompAdditive (x i) (pre i)) st (fun s st' =>
      (Cols IsAdditive (fun i => (s i).1) (onFirst (· ^ 5) v) ∧
        IsPrecomputed (IsAdditive (G := F)) (fun i => (s i).2) rs (off + 1)) ∧ Corr ty st') := by
  cases v with
  | nil => simp at hv
  | cons a v =>
    obtain ⟨x0, xs, rfl, h0, hs⟩ := Cols.uncons hx
    obtain ⟨q, ρ, hq, hqs⟩ := one_slice hpre hoff
    simp only [firstSboxPrecompAdditive, hq, orPanic, oneEntry, pure_bind]
    refine Spec.bind (Spec.netId (Q := fun r s => r = (fun i => i) ∧ s = st) ⟨rfl, rfl⟩) ?_
    rintro _ _ ⟨rfl, rfl⟩
    refine Spec.bind Rep3.spec_broadcast ?_
    rintro _ _ ⟨rfl, rfl⟩
    refine Spec.pure ⟨⟨?_, hpre.advance _⟩, hst⟩
    have hy : ∀ i : PartyID, x0 i.prev - (q i.prev).1 + (x0 i.next - (q i.next).1 + (x0 i - (q i).1)) = a - ρ := by
      intro i
      have h1 := hqs.1
      unfold IsAdditive at h0 h1
      rw [← h0, ← h1]
      cases i <;> simp [PartyID.prev, PartyID.next] <;> ring
    have := sboxPostAdditive_share (a - ρ) hqs
    rw [sub_add_cancel] at this
    simp only [hy]
    exact Cols.cons this hs

/-! S-boxes without precomputations -/

theorem spec_reshareStateRep3 {x : PartyID → List F} {v : List F} (hx : Cols IsAdditive x v)
    (hst : Corr ty st) :
    Spec (M := M) (fun i => reshareStateRep3 (x i)) st (fun s st' => IsShares s v ∧ Corr ty st') := by
  unfold reshareStateRep3
  refine Spec.bind (Spec.mapCols (P := IsAdditive) (Q := IsAdditive) (g := fun v : F => v) (I := Corr ty) hx
    ?_ hst) ?_
  · intro x v st hx hst
    refine Spec.bind (Rep3.spec_maskElem hst) ?_
    rintro m st' ⟨hm, hst'⟩
    refine Spec.pure ⟨?_, hst'⟩
    unfold IsAdditive at *
    linear_combination hx + hm
  · rintro r st' ⟨hr, hst'⟩
    rw [List.map_id'] at hr
    refine Spec.bind Rep3.spec_reshareMany ?_
    rintro _ _ ⟨rfl, rfl⟩
    refine Spec.pure ⟨?_, hst'⟩
    obtain ⟨l, rfl, hl⟩ := hr
    refine ⟨l.map fun x i => ⟨x i, x i.prev⟩, ?_, ?_⟩
    · funext i
      simp [List.zipWith_map, List.zipWith_self]
    · rw [List.forall₂_map_left_iff]
      exact hl.imp fun x v h => isShare_mk h

theorem spec_sboxFirstRep3 {x : PartyID → List (Share F)} {v : List F} (hx : Cols IsShare x v)
    (hst : Corr ty st) :
    Spec (M := M) (fun i => sboxFirstRep3 (x i)) st (fun s st' =>
      Cols IsAdditive s (v.map (· ^ 5)) ∧ Corr ty st') := by
  unfold sboxFirstRep3
  refine Spec.bind (Rep3.spec_mulVec hx hx hst) ?_
  rintro r2 st2 ⟨hr2, hst2⟩
  refine Spec.bind (Rep3.spec_mulVec hr2 hr2 hst2) ?_
  rintro r4 st4 ⟨hr4, hst4⟩
  refine Spec.pure ⟨?_, hst4⟩
  have := Cols.zipWith (f := fun _ => Share.localMul) (g := fun a b : F => a * b) (W := IsAdditive (G := F))
    hr4 hx (fun x v y u hx hy => hx.localMul hy)
  refine cast ?_ this
  congr 1
  rw [List.zipWith_self, List.zipWith_self, List.map_map]
  rw [List.zipWith_map_left, List.zipWith_self]
  exact List.map_congr_left fun x _ => by simp; ring

theorem spec_sboxRep3 {x : PartyID → List F} {v : List F} (hx : Cols IsAdditive x v)
    (hst : Corr ty st) :
    Spec (M := M) (fun i => sboxRep3 (x i)) st (fun s st' =>
      Cols IsAdditive s (v.map (· ^ 5)) ∧ Corr ty st') := by
  refine Spec.bind (spec_reshareStateRep3 hx hst) ?_
  rintro r st' ⟨hr, hst'⟩
  exact spec_sboxFirstRep3 hr hst'

theorem spec_firstSboxRep3 {x : PartyID → List F} {v : List F} (hx : Cols IsAdditive x v)
    (hv : 0 < v.length) (hst : Corr ty st) :
    Spec (M := M) (fun i => firstSboxRep3 (x i)) st (fun s st' =>
      Cols IsAdditive s (onFirst (· ^ 5) v) ∧ Corr ty st') := by
  cases v with
  | nil => simp at hv
  | cons a v =>
    obtain ⟨x0, xs, rfl, h0, hs⟩ := Cols.uncons hx
    simp only [firstSboxRep3]
    refine Spec.bind (Rep3.spec_maskElem hst) ?_
    rintro m st' ⟨hm, hst'⟩
    refine Spec.bind Rep3.spec_reshare ?_
    rintro _ _ ⟨rfl, rfl⟩
    have hsh : IsShare (fun i => (⟨x0 i + m i, x0 i.prev + m i.prev⟩ : Share F)) a :=
      isShare_mk (x := fun i => x0 i + m i) (by unfold IsAdditive at h0; linear_combination h0 + hm)
    refine Spec.bind (Rep3.spec_mul hsh hsh hst') ?_
    rintro r2 st2 ⟨hr2, hst2⟩
    refine Spec.bind (Rep3.spec_mul hr2 hr2 hst2) ?_
    rintro r4 st4 ⟨hr4, hst4⟩
    refine Spec.pure ⟨?_, hst4⟩
    refine Cols.cons ?_ hs
    have := hr4.localMul hsh
    unfold IsAdditive
    rw [this]
    ring

/-! Rounds -/

variable {p : Params F} {rs : List F} {off : Nat} {k : Nat}

omit [Sample R F] [Codec M (List F)] in
theorem internal_eq (hd : p.d = 5) (r : Nat) (v : List F) :
    internalRound p r v = matmulInternal p.diagM1 (onFirst (· ^ 5) (addRcInternal p r v)) := by
  unfold internalRound
  congr 1
  cases addRcInternal p r v with
  | nil => rfl
  | cons a l => simp [onFirst, singleSbox_eq, hd]

omit [Sample R F] [Codec M (List F)] in
theorem external_eq (hd : p.d = 5) (r : Nat) (v : List F) :
    externalRound p r v = matmulExternal ((addRcExternal p r v).map (· ^ 5)) := by
  rw [externalRound, sbox_map hd]

theorem spec_externalRoundPrecomp (hp : p.WF) (hd : p.d = 5) {r : Nat}
    (hr : r < p.roundsFBeginning + p.roundsFEnd) {s : PartyID → List (Share F) × Precomputations (Share F)}
    {v : List F} (hoff : off + p.t ≤ rs.length) (h : PreRel IsShare p.t rs off s v) (hst : Corr ty st) :
    Spec (M := M) (fun i => externalRoundPrecomp p r (s i)) st (fun s' st' =>
      PreRel IsShare p.t rs (off + p.t) s' (externalRound p r v) ∧ Corr ty st') := by
  obtain ⟨hs, hv, hpre⟩ := h
  refine Spec.bind (Spec.netId (Q := fun r s => r = (fun i => i) ∧ s = st) ⟨rfl, rfl⟩) ?_
  rintro _ _ ⟨rfl, rfl⟩
  have hl := length_addRcExternal hp hr hv
  refine Spec.bind (spec_sboxPrecompRep3 (addRcExternalRep3_cols hp hr hs hv) hpre (by omega) hst) ?_
  rintro s' st' ⟨⟨h1, h2⟩, hst'⟩
  rw [hl] at h2
  refine Spec.pure ⟨⟨?_, length_externalRound hp hr hv, h2⟩, hst'⟩
  rw [external_eq hd]
  exact matmulExternal_rel linRel_isShare hp h1 (by simp [hl])

theorem spec_internalRoundPrecomp (hp : p.WF) (hd : p.d = 5) {r : Nat}
    {s : PartyID → List (Share F) × Precomputations (Share F)}
    {v : List F} (hoff : off + 1 ≤ rs.length) (h : PreRel IsShare p.t rs off s v) (hst : Corr ty st) :
    Spec (M := M) (fun i => internalRoundPrecomp p r (s i)) st (fun s' st' =>
      PreRel IsShare p.t rs (off + 1) s' (internalRound p r v) ∧ Corr ty st') := by
  obtain ⟨hs, hv, hpre⟩ := h
  refine Spec.bind (Spec.netId (Q := fun r s => r = (fun i => i) ∧ s = st) ⟨rfl, rfl⟩) ?_
  rintro _ _ ⟨rfl, rfl⟩
  have hl := length_addRcInternal p r v
  refine Spec.bind (spec_firstSboxPrecompRep3 (addRcInternalRep3_cols p r hs)
    (by rw [hl, hv]; exact t_pos hp) hpre hoff hst) ?_
  rintro s' st' ⟨⟨h1, h2⟩, hst'⟩
  refine Spec.pure ⟨⟨?_, length_internalRound hp r hv, h2⟩, hst'⟩
  rw [internal_eq hd]
  exact matmulInternal_rel linRel_isShare hp h1 (by simp [hl, hv])

theorem spec_externalRoundPrecompAdditive (hp : p.WF) (hd : p.d = 5) {r : Nat}
    (hr : r < p.roundsFBeginning + p.roundsFEnd) {s : PartyID → List F × Precomputations F}
    {v : List F} (hoff : off + p.t ≤ rs.length) (h : PreRel IsAdditive p.t rs off s v) (hst : Corr ty st) :
    Spec (M := M) (fun i => externalRoundPrecompAdditive p r (s i)) st (fun s' st' =>
      PreRel IsAdditive p.t rs (off + p.t) s' (externalRound p r v) ∧ Corr ty st') := by
  obtain ⟨hs, hv, hpre⟩ := h
  refine Spec.bind (Spec.netId (Q := fun r s => r = (fun i => i) ∧ s = st) ⟨rfl, rfl⟩) ?_
  rintro _ _ ⟨rfl, rfl⟩
  have hl := length_addRcExternal hp hr hv
  refine Spec.bind (spec_sboxPrecompAdditive (addRcExternalAdditive_cols hp hr hs hv) hpre (by omega) hst) ?_
  rintro s' st' ⟨⟨h1, h2⟩, hst'⟩
  rw [hl] at h2
  refine Spec.pure ⟨⟨?_, length_externalRound hp hr hv, h2⟩, hst'⟩
  rw [external_eq hd]
  exact matmulExternal_rel linRel_isAdditive hp h1 (by simp [hl])

theorem spec_internalRoundPrecompAdditive (hp : p.WF) (hd : p.d = 5) {r : Nat}
    {s : PartyID → List F × Precomputations F}
    {v : List F} (hoff : off + 1 ≤ rs.length) (h : PreRel IsAdditive p.t rs off s v) (hst : Corr ty st) :
    Spec (M := M) (fun i => internalRoundPrecompAdditive p r (s i)) st (fun s' st' =>
      PreRel IsAdditive p.t rs (off + 1) s' (internalRound p r v) ∧ Corr ty st') := by
  obtain ⟨hs, hv, hpre⟩ := h
  refine Spec.bind (Spec.netId (Q := fun r s => r = (fun i => i) ∧ s = st) ⟨rfl, rfl⟩) ?_
  rintro _ _ ⟨rfl, rfl⟩
  have hl := length_addRcInternal p r v
  refine Spec.bind (spec_firstSboxPrecompAdditive (addRcInternalAdditive_cols p r hs)
    (by rw [hl, hv]; exact t_pos hp) hpre hoff hst) ?_
  rintro s' st' ⟨⟨h1, h2⟩, hst'⟩
  refine Spec.pure ⟨⟨?_, length_internalRound hp r hv, h2⟩, hst'⟩
  rw [internal_eq hd]
  exact matmulInternal_rel linRel_isAdditive hp h1 (by simp [hl, hv])

theorem spec_externalRoundRep3 (hp : p.WF) (hd : p.d = 5) {r : Nat}
    (hr : r < p.roundsFBeginning + p.roundsFEnd) {s : PartyID → List F}
    {v : List F} (h : Cols IsAdditive s v ∧ v.length = p.t) (hst : Corr ty st) :
    Spec (M := M) (fun i => externalRoundRep3 p r (s i)) st (fun s' st' =>
      (Cols IsAdditive s' (externalRound p r v) ∧ (externalRound p r v).length = p.t) ∧ Corr ty st') := by
  obtain ⟨hs, hv⟩ := h
  refine Spec.bind (Spec.netId (Q := fun r s => r = (fun i => i) ∧ s = st) ⟨rfl, rfl⟩) ?_
  rintro _ _ ⟨rfl, rfl⟩
  have hl := length_addRcExternal hp hr hv
  refine Spec.bind (spec_sboxRep3 (addRcExternalAdditive_cols hp hr hs hv) hst) ?_
  rintro s' st' ⟨h1, hst'⟩
  refine Spec.pure ⟨⟨?_, length_externalRound hp hr hv⟩, hst'⟩
  rw [external_eq hd]
  exact matmulExternal_rel linRel_isAdditive hp h1 (by simp [hl])

theorem spec_internalRoundRep3 (hp : p.WF) (hd : p.d = 5) {r : Nat} {s : PartyID → List F}
    {v : List F} (h : Cols IsAdditive s v ∧ v.length = p.t) (hst : Corr ty st) :
    Spec (M := M) (fun i => internalRoundRep3 p r (s i)) st (fun s' st' =>
      (Cols IsAdditive s' (internalRound p r v) ∧ (internalRound p r v).length = p.t) ∧ Corr ty st') := by
  obtain ⟨hs, hv⟩ := h
  refine Spec.bind (Spec.netId (Q := fun r s => r = (fun i => i) ∧ s = st) ⟨rfl, rfl⟩) ?_
  rintro _ _ ⟨rfl, rfl⟩
  have hl := length_addRcInternal p r v
  refine Spec.bind (spec_firstSboxRep3 (addRcInternalAdditive_cols p r hs)
    (by rw [hl, hv]; exact t_pos hp) hst) ?_
  rintro s' st' ⟨h1, hst'⟩
  refine Spec.pure ⟨⟨?_, length_internalRound hp r hv⟩, hst'⟩
  rw [internal_eq hd]
  exact matmulInternal_rel linRel_isAdditive hp h1 (by simp [hl, hv])

theorem spec_externalRoundPrecompPacked (hp : p.WF) (hd : p.d = 5) {r : Nat}
    (hr : r < p.roundsFBeginning + p.roundsFEnd) {s : PartyID → List (Share F) × Precomputations (Share F)}
    {v : List (List F)} (hoff : off + k * p.t ≤ rs.length) (h : PackRel IsShare p.t k rs off s v)
    (hst : Corr ty st) :
    Spec (M := M) (fun i => externalRoundPrecompPacked p r (s i)) st (fun s' st' =>
      PackRel IsShare p.t k rs (off + k * p.t) s' (v.map (externalRound p r)) ∧ Corr ty st') := by
  obtain ⟨hs, ⟨hv, hk⟩, hpre⟩ := h
  refine Spec.bind (Spec.netId (Q := fun r s => r = (fun i => i) ∧ s = st) ⟨rfl, rfl⟩) ?_
  rintro _ _ ⟨rfl, rfl⟩
  have hrc := Cols.mapChunks hs (t_pos hp) (f := fun i => addRcExternalRep3 p r i) (g := addRcExternal p r)
    (fun y ws hl hy => addRcExternalRep3_cols hp hr hy hl)
  rw [mapChunks_flatten (t_pos hp) hv] at hrc
  have hl : ((v.map (addRcExternal p r)).flatten).length = k * p.t := by
    rw [length_flatten_const (t := p.t) (by
      intro u hu
      obtain ⟨w, hw, rfl⟩ := List.mem_map.mp hu
      exact length_addRcExternal hp hr (hv w hw)), List.length_map, hk]
  refine Spec.bind (spec_sboxPrecompRep3 hrc hpre (by omega) hst) ?_
  rintro s' st' ⟨⟨h1, h2⟩, hst'⟩
  rw [hl] at h2
  have hlen : ∀ u ∈ v.map (externalRound p r), u.length = p.t := by
    intro u hu
    obtain ⟨w, hw, rfl⟩ := List.mem_map.mp hu
    exact length_externalRound hp hr (hv w hw)
  refine Spec.pure ⟨⟨?_, ⟨hlen, by simp [hk]⟩, h2⟩, hst'⟩
  have hm := Cols.mapChunks h1 (t_pos hp) (f := fun i => matmulExternal) (g := matmulExternal)
    (fun y ws hl hy => matmulExternal_rel linRel_isShare hp hy hl)
  rw [List.map_flatten, List.map_map, mapChunks_flatten (t_pos hp) (by
    intro u hu
    obtain ⟨w, hw, rfl⟩ := List.mem_map.mp hu
    simp [length_addRcExternal hp hr (hv w hw)]), List.map_map] at hm
  refine cast ?_ hm
  congr 2
  exact List.map_congr_left fun u _ => (external_eq hd r u).symm

theorem spec_internalRoundPrecompPacked (hp : p.WF) (hd : p.d = 5) {r : Nat}
    {s : PartyID → List (Share F) × Precomputations (Share F)}
    {v : List (List F)} (hoff : off + k ≤ rs.length) (h : PackRel IsShare p.t k rs off s v)
    (hst : Corr ty st) :
    Spec (M := M) (fun i => internalRoundPrecompPacked p r (s i)) st (fun s' st' =>
      PackRel IsShare p.t k rs (off + k) s' (v.map (internalRound p r)) ∧ Corr ty st') := by
  obtain ⟨hs, ⟨hv, hk⟩, hpre⟩ := h
  refine Spec.bind (Spec.netId (Q := fun r s => r = (fun i => i) ∧ s = st) ⟨rfl, rfl⟩) ?_
  rintro _ _ ⟨rfl, rfl⟩
  have hrc := Cols.mapChunks hs (t_pos hp) (f := fun i => addRcInternalRep3 p r i) (g := addRcInternal p r)
    (fun y ws hl hy => addRcInternalRep3_cols p r hy)
  rw [mapChunks_flatten (t_pos hp) hv] at hrc
  have hrl : ∀ u ∈ v.map (addRcInternal p r), u.length = p.t := by
    intro u hu
    obtain ⟨w, hw, rfl⟩ := List.mem_map.mp hu
    rw [length_addRcInternal, hv w hw]
  have hst1 := Cols.stepBy hrc p.t
  rw [stepBy_flatten (t_pos hp) hrl] at hst1
  have hl : ((v.map (addRcInternal p r)).flatMap (List.take 1)).length = k := by
    rw [List.flatMap_def, length_flatten_const (t := 1), List.length_map, List.length_map, hk, Nat.mul_one]
    intro u hu
    obtain ⟨w, hw, rfl⟩ := List.mem_map.mp hu
    have := hrl w hw
    have := t_pos hp
    simp; omega
  refine Spec.bind (Q₁ := fun (s' : PartyID → List (Share F) × Precomputations (Share F)) st' => (Cols IsShare (fun i => (s' i).1)
      (((v.map (addRcInternal p r)).map (onFirst (· ^ 5))).flatten) ∧
    IsPrecomputed (IsShare (G := F)) (fun i => (s' i).2) rs (off + k)) ∧ Corr ty st') ?_ ?_
  · refine Spec.bind (spec_sboxPrecompRep3 hst1 hpre (by omega) hst) ?_
    rintro s' st' ⟨⟨h1, h2⟩, hst'⟩
    rw [hl] at h2
    refine Spec.pure ⟨⟨?_, h2⟩, hst'⟩
    have := Cols.setBy hrc h1 p.t
    rw [setBy_flatten (t_pos hp) hrl] at this
    exact this
  · rintro s' st' ⟨⟨h1, h2⟩, hst'⟩
    have hlen : ∀ u ∈ v.map (internalRound p r), u.length = p.t := by
      intro u hu
      obtain ⟨w, hw, rfl⟩ := List.mem_map.mp hu
      exact length_internalRound hp r (hv w hw)
    refine Spec.pure ⟨⟨?_, ⟨hlen, by simp [hk]⟩, h2⟩, hst'⟩
    have hm := Cols.mapChunks h1 (t_pos hp) (f := fun i => matmulInternal p.diagM1) (g := matmulInternal p.diagM1)
      (fun y ws hl hy => matmulInternal_rel linRel_isShare hp hy hl)
    rw [mapChunks_flatten (t_pos hp) (by
      intro u hu
      obtain ⟨w, hw, rfl⟩ := List.mem_map.mp hu
      simp [hrl w hw]), List.map_map, List.map_map] at hm
    refine cast ?_ hm
    congr 2
    exact List.map_congr_left fun u _ => (internal_eq hd r u).symm

/-! Permutations -/

theorem spec_permutationPrecomp (hp : p.WF) (hd : p.d = 5) {x : PartyID → List (Share F)} {v : List F}
    (hx : IsShares x v) (hv : v.length = p.t) {pre : PartyID → Precomputations (Share F)}
    (hpre : IsPrecomputed (IsShare (G := F)) pre rs off) (hoff : off + p.numSbox ≤ rs.length)
    (hst : Corr ty st) :
    Spec (M := M) (fun i => permutationPrecomp p (x i) (pre i)) st (fun s st' =>
      IsShares (fun i => (s i).1) (permutationRounds p (matmulExternal v)) ∧
      IsPrecomputed (IsShare (G := F)) (fun i => (s i).2) rs (off + p.numSbox) ∧ Corr ty st') := by
  simp only [permutationPrecomp, checked, if_pos (⟨hp.size, hd⟩ : ValidSize p.t ∧ p.d = 5)]
  refine (spec_rounds p (Rel := PreRel IsShare p.t rs) (I := Corr ty) (N := rs.length) (ce := p.t) (ci := 1)
    (ext := externalRoundPrecomp p) (int := internalRoundPrecomp p) (ext' := externalRound p)
    (int' := internalRound p)
    (fun r hr off s v st hoff h hst => spec_externalRoundPrecomp hp hd hr hoff h hst)
    (fun r hr off s v st hoff h hst => spec_internalRoundPrecomp hp hd hoff h hst)
    (off := off) (s := fun i => (matmulExternal (x i), pre i)) (v := matmulExternal v)
    (by unfold Params.numSbox at hoff; omega)
    ⟨matmulExternal_rel linRel_isShare hp hx hv, length_first hp hv, hpre⟩ hst).mono ?_
  rintro s st' ⟨⟨h1, _, h2⟩, hst'⟩
  rw [← permutationRounds_eq] at h1
  refine ⟨h1, ?_, hst'⟩
  rw [Params.numSbox, ← Nat.add_assoc, ← Nat.mul_one p.roundsP]
  exact h2

theorem spec_permutationAdditive (hp : p.WF) (hd : p.d = 5) {x : PartyID → List (Share F)} {v : List F}
    (hx : IsShares x v) (hv : v.length = p.t) {pre : PartyID → Precomputations F}
    (hpre : IsPrecomputed (IsAdditive (G := F)) pre rs off) (hoff : off + p.numSbox ≤ rs.length)
    (hst : Corr ty st) :
    Spec (M := M) (fun i => permutationAdditive p (x i) (pre i)) st (fun s st' =>
      IsShares (fun i => (s i).1) (permutationRounds p (matmulExternal v)) ∧
      IsPrecomputed (IsAdditive (G := F)) (fun i => (s i).2) rs (off + p.numSbox) ∧ Corr ty st') := by
  simp only [permutationAdditive, checked, if_pos (⟨hp.size, hd⟩ : ValidSize p.t ∧ p.d = 5)]
  have hxa : Cols (IsAdditive (G := F)) (fun i => (x i).map Share.a) v := by
    have := Cols.map (Q := IsAdditive (G := F)) (f := fun _ => Share.a) (g := fun v : F => v)
      (show Cols IsShare x v from hx) fun x v h => h.2
    rwa [List.map_id'] at this
  refine Spec.bind (spec_rounds p (Rel := PreRel IsAdditive p.t rs) (I := Corr ty) (N := rs.length) (ce := p.t)
    (ci := 1)
    (ext := externalRoundPrecompAdditive p) (int := internalRoundPrecompAdditive p) (ext' := externalRound p)
    (int' := internalRound p)
    (fun r hr off s v st hoff h hst => spec_externalRoundPrecompAdditive hp hd hr hoff h hst)
    (fun r hr off s v st hoff h hst => spec_internalRoundPrecompAdditive hp hd hoff h hst)
    (off := off) (s := fun i => (matmulExternal ((x i).map Share.a), pre i)) (v := matmulExternal v)
    (by unfold Params.numSbox at hoff; omega)
    ⟨matmulExternal_rel linRel_isAdditive hp hxa hv, length_first hp hv, hpre⟩ hst) ?_
  rintro s st' ⟨⟨h1, _, h2⟩, hst'⟩
  rw [← permutationRounds_eq] at h1
  refine Spec.bind (spec_reshareStateRep3 h1 hst') ?_
  rintro y st'' ⟨hy, hst''⟩
  refine Spec.pure ⟨hy, ?_, hst''⟩
  rw [Params.numSbox, ← Nat.add_assoc, ← Nat.mul_one p.roundsP]
  exact h2

theorem spec_permutationPacked (hp : p.WF) (hd : p.d = 5) {x : PartyID → List (Share F)} {v : List (List F)}
    (hx : IsShares x v.flatten) (hv : ∀ u ∈ v, u.length = p.t) {pre : PartyID → Precomputations (Share F)}
    (hpre : IsPrecomputed (IsShare (G := F)) pre rs off) (hoff : off + p.numSbox * v.length ≤ rs.length)
    (hst : Corr ty st) :
    Spec (M := M) (fun i => permutationPacked p (x i) (pre i)) st (fun s st' =>
      IsShares (fun i => (s i).1) (v.map fun u => permutationRounds p (matmulExternal u)).flatten ∧
      IsPrecomputed (IsShare (G := F)) (fun i => (s i).2) rs (off + p.numSbox * v.length) ∧ Corr ty st') := by
  have hlen : ∀ i, (x i).length % p.t = 0 := by
    intro i
    rw [Cols.length (P := IsShare) hx i, length_flatten_const hv]
    exact Nat.mul_mod_left _ _
  simp only [permutationPacked, checked, if_pos (⟨hp.size, hd⟩ : ValidSize p.t ∧ p.d = 5), hlen, ne_eq,
    not_true_eq_false, if_false]
  have e : (p.roundsFBeginning + p.roundsFEnd) * (v.length * p.t) + p.roundsP * v.length =
      p.numSbox * v.length := by
    unfold Params.numSbox; ring
  have hm := Cols.mapChunks (show Cols IsShare x v.flatten from hx) (t_pos hp) (f := fun i => matmulExternal)
    (g := matmulExternal) (fun y ws hl hy => matmulExternal_rel linRel_isShare hp hy hl)
  rw [mapChunks_flatten (t_pos hp) hv] at hm
  refine (spec_rounds p (Rel := PackRel IsShare p.t v.length rs) (I := Corr ty) (N := rs.length)
    (ce := v.length * p.t) (ci := v.length)
    (ext := externalRoundPrecompPacked p) (int := internalRoundPrecompPacked p)
    (ext' := fun r v => v.map (externalRound p r)) (int' := fun r v => v.map (internalRound p r))
    (fun r hr off s v st hoff h hst => spec_externalRoundPrecompPacked hp hd hr hoff h hst)
    (fun r hr off s v st hoff h hst => spec_internalRoundPrecompPacked hp hd hoff h hst)
    (off := off) (s := fun i => (mapChunks matmulExternal p.t (x i), pre i)) (v := v.map matmulExternal)
    (by omega)
    ⟨hm, ⟨by
      intro u hu
      obtain ⟨w, hw, rfl⟩ := List.mem_map.mp hu
      exact length_first hp (hv w hw), by simp⟩, hpre⟩ hst).mono ?_
  rintro s st' ⟨⟨h1, _, h2⟩, hst'⟩
  rw [roundsPlain_map, List.map_map] at h1
  refine ⟨?_, ?_, hst'⟩
  · refine cast ?_ h1
    simp only [permutationRounds_eq]
    rfl
  · rw [← e, ← Nat.add_assoc]; exact h2

theorem spec_permutationRep3 (hp : p.WF) (hd : p.d = 5) (hb : 0 < p.roundsFBeginning)
    {x : PartyID → List (Share F)} {v : List F} (hx : IsShares x v) (hv : v.length = p.t) (hst : Corr ty st) :
    Spec (M := M) (fun i => permutationRep3 p (x i)) st (fun s st' =>
      IsShares s (permutationRounds p (matmulExternal v)) ∧ Corr ty st') := by
  simp only [permutationRep3, checked, if_pos (⟨hp.size, hd⟩ : ValidSize p.t ∧ p.d = 5)]
  refine Spec.bind (Spec.netId (Q := fun r s => r = (fun i => i) ∧ s = st) ⟨rfl, rfl⟩) ?_
  rintro _ _ ⟨rfl, rfl⟩
  have hl1 := length_first hp hv
  have hl2 := length_addRcExternal hp (r := 0) (by omega) hl1
  refine Spec.bind (spec_sboxFirstRep3 (addRcExternalRep3_cols hp (r := 0) (by omega)
    (matmulExternal_rel linRel_isShare hp hx hv) hl1) hst) ?_
  rintro s st1 ⟨h1, hst1⟩
  have h1' := matmulExternal_rel linRel_isAdditive hp h1 (by simp [hl2])
  rw [← external_eq hd] at h1'
  refine Spec.bind (Spec.foldlM (Rel := fun s v => Cols IsAdditive s v ∧ v.length = p.t) (I := Corr ty)
    (f := fun _ s r => externalRoundRep3 p r s) (step := fun v r => externalRound p r v)
    (fun r hr s v st h hst => spec_externalRoundRep3 hp hd (by simp [List.mem_range'] at hr; omega) h hst)
    ⟨h1', length_externalRound hp (by omega) hl1⟩ hst1) ?_
  rintro s2 st2 ⟨h2, hst2⟩
  refine Spec.bind (Spec.foldlM (Rel := fun s v => Cols IsAdditive s v ∧ v.length = p.t) (I := Corr ty)
    (f := fun _ s r => internalRoundRep3 p r s) (step := fun v r => internalRound p r v)
    (fun r hr s v st h hst => spec_internalRoundRep3 hp hd h hst) h2 hst2) ?_
  rintro s3 st3 ⟨h3, hst3⟩
  refine Spec.bind (Spec.foldlM (Rel := fun s v => Cols IsAdditive s v ∧ v.length = p.t) (I := Corr ty)
    (f := fun _ s r => externalRoundRep3 p r s) (step := fun v r => externalRound p r v)
    (fun r hr s v st h hst => spec_externalRoundRep3 hp hd (by simp [List.mem_range'] at hr; omega) h hst)
    h3 hst3) ?_
  rintro s4 st4 ⟨h4, hst4⟩
  refine (spec_reshareStateRep3 h4.1 hst4).mono ?_
  rintro y st5 ⟨hy, hst5⟩
  refine ⟨?_, hst5⟩
  refine cast ?_ hy
  congr 1
  rw [permutationRounds_eq, roundsPlain]
  obtain ⟨b, hb'⟩ : ∃ b, p.roundsFBeginning = b + 1 := ⟨p.roundsFBeginning - 1, by omega⟩
  rw [List.range_eq_range' (n := p.roundsFBeginning), hb', Nat.add_sub_cancel, List.range'_succ,
    List.foldl_cons]

end Rep3

end Verif.Poseidon2
