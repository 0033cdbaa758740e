import Verif.Gadgets.Poseidon2Rep3Lemmas
import Verif.Shamir.ArithLemmas

/-!
# Poseidon2 on Shamir shares
-/

namespace Verif.Poseidon2

open Shamir

variable {n : Nat} {F R M : Type} [Field F] [Sample R F] [Codec M F] [Codec M (List F)] {t : Nat}
  {st : Fin n → ShamirState n R F}

theorem linRel_isShamir {d : Nat} : LinRel (F := F) (IsShamir (V := F) F (n := n) d) where
  add h h' := h.add h'
  scale c h := by
    have := h.smul c
    simpa [mul_comm] using this

theorem isShamir_addConst {d : Nat} {x : Fin n → F} {v : F} (h : IsShamir F d x v) (c : F) :
    IsShamir F d (fun i => x i + c) (v + c) := h.add (IsShamir.const d c)

theorem spec_precomputeShamir {p : Params F} (hd : p.d = 5) (num : Nat) (hst : ShCorr t st) :
    Spec (M := M) (fun _ => precomputeShamir p num) st (fun pre st' =>
      (∃ rs : List F, rs.length = p.numSbox * num ∧ IsPrecomputed (IsShamir (V := F) F t) pre rs 0) ∧
        ShCorr t st') := by
  unfold precomputeShamir
  simp only [hd, ne_eq, not_true_eq_false, ↓reduceIte]
  have h0 : Spec (M := M) (fun _ => (List.range (p.numSbox * num)).mapM
      fun (_ : Nat) => (Shamir.rand : ShamirM n R F M F)) st
      (fun r st' => (∃ rs : List F, rs.length = p.numSbox * num ∧ Cols (IsShamir (V := F) F t) r rs) ∧
        ShCorr t st') := by
    refine (Spec.mapCols (P := fun (x : Fin n → Nat) v => x = fun _ => v)
      (Q := fun x (_ : Unit) => ∃ ρ, IsShamir (V := F) F t x ρ)
      (g := fun _ => ()) (I := ShCorr t) (Cols.const (List.range (p.numSbox * num)))
      (fun x v st _ hI => Shamir.spec_rand hI) hst).mono ?_
    rintro r st' ⟨⟨l, rfl, hl⟩, hI⟩
    refine ⟨?_, hI⟩
    have hlen : l.length = p.numSbox * num := by simpa using hl.length_eq
    have : ∃ ρs, List.Forall₂ (IsShamir (V := F) F t) l ρs := by
      clear hlen
      generalize (List.range (p.numSbox * num)).map (fun _ => ()) = us at hl
      induction hl with
      | nil => exact ⟨[], .nil⟩
      | cons hx _ ih =>
        obtain ⟨ρ, hρ⟩ := hx
        obtain ⟨ρs, hρs⟩ := ih
        exact ⟨ρ :: ρs, .cons hρ hρs⟩
    obtain ⟨ρs, hρ⟩ := this
    exact ⟨ρs, by rw [← hρ.length_eq, hlen], l, rfl, hρ⟩
  refine Spec.bind h0 ?_
  rintro r st1 ⟨⟨rs, hl, hr⟩, hst1⟩
  refine Spec.bind (Shamir.spec_mulVec hst1 hr hr) ?_
  rintro r2 st2 ⟨hr2, hst2⟩
  have e2 : List.zipWith (· * ·) rs rs = rs.map (· ^ 2) := by
    rw [List.zipWith_self]; exact List.map_congr_left fun x _ => by ring
  rw [e2] at hr2
  refine Spec.bind (Shamir.spec_mulVec hst2 hr2 hr2) ?_
  rintro r4 st4 ⟨hr4, hst4⟩
  have e4 : List.zipWith (· * ·) (rs.map (· ^ 2)) (rs.map (· ^ 2)) = rs.map (· ^ 4) := by
    rw [List.zipWith_self, List.map_map]; exact List.map_congr_left fun x _ => by simp; ring
  rw [e4] at hr4
  refine Spec.bind (Shamir.spec_mulVec hst4 (Cols.append hr hr)
    (Cols.append (P := IsShamir (V := F) F t) hr2 hr4)) ?_
  rintro r35 st5 ⟨hr35, hst5⟩
  have e35 : List.zipWith (· * ·) (rs ++ rs) (rs.map (· ^ 2) ++ rs.map (· ^ 4)) =
      rs.map (· ^ 3) ++ rs.map (· ^ 5) := by
    rw [List.zipWith_append (by simp)]
    have a : ∀ k, List.zipWith (· * ·) rs (rs.map (· ^ k)) = rs.map (· ^ (k + 1)) := by
      intro k
      rw [List.zipWith_map_right, List.zipWith_self]
      exact List.map_congr_left fun x _ => by ring
    rw [a 2, a 4]
  rw [e35] at hr35
  have h3 := Cols.take (P := IsShamir (V := F) F t) hr35 (p.numSbox * num)
  have h5 := Cols.drop (P := IsShamir (V := F) F t) hr35 (p.numSbox * num)
  rw [List.take_left' (by simp [hl])] at h3
  rw [List.drop_left' (by simp [hl])] at h5
  exact Spec.pure ⟨⟨rs, hl, hr, hr2, h3, hr4, h5, fun _ => rfl⟩, hst5⟩

/-! Constants -/

theorem addRcExternalShamir_cols (p : Params F) (r : Nat) {x : Fin n → List F} {v : List F}
    (hx : Cols (IsShamir (V := F) F t) x v) :
    Cols (IsShamir (V := F) F t) (fun i => addRcExternal p r (x i)) (addRcExternal p r v) :=
  Cols.zipWith (f := fun _ (s c : F) => s + c) (g := fun v c : F => v + c)
    (W := IsShamir (V := F) F t) hx (Cols.const (p.rcExternal.getD r [])) (fun x v y u hx hy => by
      subst hy; exact isShamir_addConst hx u)

theorem addRcInternalShamir_cols (p : Params F) (r : Nat) {x : Fin n → List F} {v : List F}
    (hx : Cols (IsShamir (V := F) F t) x v) :
    Cols (IsShamir (V := F) F t) (fun i => addRcInternal p r (x i)) (addRcInternal p r v) :=
  onFirst_cols (f := fun _ (s : F) => s + p.rcInternal.getD r 0)
    (g := (· + p.rcInternal.getD r 0)) hx fun x v h => isShamir_addConst h _

/-! S-boxes -/

theorem sboxPostShamir_share (y : F) {q : Fin n → F × F × F × F × F} {ρ : F}
    (hq : PowRel (IsShamir (V := F) F t) q ρ) :
    IsShamir F t (fun i => sboxPostShamir y (q i)) ((y + ρ) ^ 5) := by
  obtain ⟨h1, h2, h3, h4, h5⟩ := hq
  have h := (((((IsShamir.const t (y * y * (y * y) * y)).add (h1.smul (y * y * (y * y) * 5))).add
    (h2.smul (y * y * y * 10))).add (h3.smul (y * y * 10))).add (h4.smul (y * 5))).add h5
  refine cast ?_ h
  have e : (fun i => sboxPostShamir y (q i)) = fun i => y * y * (y * y) * y + (y * y * (y * y) * 5) • (q i).1 +
      (y * y * y * 10) • (q i).2.1 + (y * y * 10) • (q i).2.2.1 + (y * 5) • (q i).2.2.2.1 + (q i).2.2.2.2 := by
    funext i
    simp only [sboxPostShamir, smul_eq_mul]
    ring
  rw [e]
  congr 1
  simp only [smul_eq_mul]
  ring

theorem spec_sboxPrecompShamir {x : Fin n → List F} {v : List F}
    {pre : Fin n → Precomputations F} {rs : List F} {off : Nat} (hx : Cols (IsShamir (V := F) F t) x v)
    (hpre : IsPrecomputed (IsShamir (V := F) F t) pre rs off) (hoff : off + v.length ≤ rs.length)
    (hst : ShCorr t st) :
    Spec (M := M) (fun i => sboxPrecompShamir (x i) (pre i)) st (fun s st' =>
      (Cols (IsShamir (V := F) F t) (fun i => (s i).1) (v.map (· ^ 5)) ∧
        IsPrecomputed (IsShamir (V := F) F t) (fun i => (s i).2) rs (off + v.length)) ∧ ShCorr t st') := by
  obtain ⟨q, hq, hqs⟩ := hpre.slice hoff
  unfold sboxPrecompShamir
  simp only [hx.length, hq, orPanic, pure_bind]
  have hd := Cols.zipWith (f := fun _ a (q : F × _) => a - q.1) (g := fun v ρ : F => v - ρ)
    (W := IsShamir (V := F) F t) hx hqs (fun x v y u hx hy => hx.sub hy.1)
  refine Spec.bind (Shamir.spec_openVec hst hd) ?_
  rintro _ _ ⟨rfl, rfl⟩
  refine Spec.pure ⟨⟨?_, hpre.advance _⟩, hst⟩
  have := Cols.zipWith (f := fun _ y q => sboxPostShamir y q) (g := fun y ρ : F => (y + ρ) ^ 5)
    (W := IsShamir (V := F) F t)
    (Cols.const (List.zipWith (fun v ρ : F => v - ρ) v ((rs.drop off).take v.length)))
    hqs (fun x v y u hx hy => by subst hx; exact sboxPostShamir_share v hy)
  rw [powers_value (by simp; omega)] at this
  exact this

theorem spec_firstSboxPrecompShamir {x : Fin n → List F} {v : List F}
    {pre : Fin n → Precomputations F} {rs : List F} {off : Nat} (hx : Cols (IsShamir (V := F) F t) x v)
    (hv : 0 < v.length)
    (hpre : IsPrecomputed (IsShamir (V := F) F t) pre rs off) (hoff : off + 1 ≤ rs.length)
    (hst : ShCorr t st) :
    Spec (M := M) (fun i => firstSboxPrecompShamir (x i) (pre i)) st (fun s st' =>
      (Cols (IsShamir (V := F) F t) (fun i => (s i).1) (onFirst (· ^ 5) v) ∧
        IsPrecomputed (IsShamir (V := F) F t) (fun i => (s i).2) rs (off + 1)) ∧ ShCorr t st') := by
  cases v with
  | nil => simp at hv
  | cons a v =>
    obtain ⟨x0, xs, rfl, h0, hs⟩ := Cols.uncons hx
    obtain ⟨q, ρ, hq, hqs⟩ := one_slice hpre hoff
    simp only [firstSboxPrecompShamir, hq, orPanic, oneEntry, pure_bind]
    refine Spec.bind (Shamir.spec_openShare hst (h0.sub hqs.1)) ?_
    rintro _ _ ⟨rfl, rfl⟩
    refine Spec.pure ⟨⟨?_, hpre.advance _⟩, hst⟩
    have := sboxPostShamir_share (a - ρ) hqs
    rw [sub_add_cancel] at this
    exact Cols.cons this hs

theorem spec_sboxShamir {x : Fin n → List F} {v : List F} (hx : Cols (IsShamir (V := F) F t) x v)
    (hst : ShCorr t st) :
    Spec (M := M) (fun i => sboxShamir (x i)) st (fun s st' =>
      Cols (IsShamir (V := F) F t) s (v.map (· ^ 5)) ∧ ShCorr t st') := by
  have hsq : ∀ {y : Fin n → List F} {w : List F}, Cols (IsShamir (V := F) F t) y w →
      Cols (IsShamir (V := F) F (2 * t)) (fun i => (y i).map fun a => a * a) (w.map fun a => a * a) := by
    intro y w hy
    refine Cols.map (f := fun _ a => a * a) (g := fun a : F => a * a) hy fun x v h => ?_
    rw [Nat.two_mul]
    exact h.mul h
  unfold sboxShamir
  refine Spec.bind (Shamir.spec_degreeReduceMany hst (hsq hx)) ?_
  rintro r2 st2 ⟨hr2, hst2⟩
  refine Spec.bind (Shamir.spec_degreeReduceMany hst2 (hsq hr2)) ?_
  rintro r4 st4 ⟨hr4, hst4⟩
  have h5 := Shamir.isShamirs_mul hr4 (show IsShamirs F t x v from hx)
  rw [← Nat.two_mul] at h5
  refine (Shamir.spec_degreeReduceMany hst4 h5).mono ?_
  rintro r st' ⟨hr, hst'⟩
  refine ⟨cast ?_ hr, hst'⟩
  show IsShamirs F t r _ = IsShamirs F t r _
  congr 1
  rw [List.map_map, List.zipWith_map_left, List.zipWith_self]
  exact List.map_congr_left fun x _ => by simp; ring

theorem spec_firstSboxShamir {x : Fin n → List F} {v : List F} (hx : Cols (IsShamir (V := F) F t) x v)
    (hv : 0 < v.length) (hst : ShCorr t st) :
    Spec (M := M) (fun i => firstSboxShamir (x i)) st (fun s st' =>
      Cols (IsShamir (V := F) F t) s (onFirst (· ^ 5) v) ∧ ShCorr t st') := by
  cases v with
  | nil => simp at hv
  | cons a v =>
    obtain ⟨x0, xs, rfl, h0, hs⟩ := Cols.uncons hx
    have hm : ∀ {y z : Fin n → F} {v w : F}, IsShamir F t y v → IsShamir F t z w →
        IsShamir F (2 * t) (fun i => y i * z i) (v * w) := by
      intro y z v w h h'
      rw [Nat.two_mul]
      exact h.mul h'
    simp only [firstSboxShamir]
    refine Spec.bind (Shamir.spec_degreeReduce hst (hm h0 h0)) ?_
    rintro r2 st2 ⟨hr2, hst2⟩
    refine Spec.bind (Shamir.spec_degreeReduce hst2 (hm hr2 hr2)) ?_
    rintro r4 st4 ⟨hr4, hst4⟩
    refine Spec.bind (Shamir.spec_degreeReduce hst4 (hm hr4 h0)) ?_
    rintro r st' ⟨hr, hst'⟩
    refine Spec.pure ⟨Cols.cons ?_ hs, hst'⟩
    have e : a ^ 5 = a * a * (a * a) * a := by ring
    rw [show (fun x : F => x ^ 5) a = _ from e]
    exact hr

/-! Rounds -/

variable {p : Params F} {rs : List F} {off : Nat} {k : Nat}

theorem spec_externalRoundPrecompShamir (hp : p.WF) (hd : p.d = 5) {r : Nat}
    (hr : r < p.roundsFBeginning + p.roundsFEnd) {s : Fin n → List F × Precomputations F}
    {v : List F} (hoff : off + p.t ≤ rs.length) (h : PreRel (IsShamir (V := F) F t) p.t rs off s v)
    (hst : ShCorr t st) :
    Spec (M := M) (fun i => externalRoundPrecompShamir p r (s i)) st (fun s' st' =>
      PreRel (IsShamir (V := F) F t) p.t rs (off + p.t) s' (externalRound p r v) ∧ ShCorr t st') := by
  obtain ⟨hs, hv, hpre⟩ := h
  have hl := length_addRcExternal hp hr hv
  refine Spec.bind (spec_sboxPrecompShamir (addRcExternalShamir_cols p r hs) hpre (by omega) hst) ?_
  rintro s' st' ⟨⟨h1, h2⟩, hst'⟩
  rw [hl] at h2
  refine Spec.pure ⟨⟨?_, length_externalRound hp hr hv, h2⟩, hst'⟩
  rw [external_eq hd]
  exact matmulExternal_rel linRel_isShamir hp h1 (by simp [hl])

theorem spec_internalRoundPrecompShamir (hp : p.WF) (hd : p.d = 5) {r : Nat}
    {s : Fin n → List F × Precomputations F}
    {v : List F} (hoff : off + 1 ≤ rs.length) (h : PreRel (IsShamir (V := F) F t) p.t rs off s v)
    (hst : ShCorr t st) :
    Spec (M := M) (fun i => internalRoundPrecompShamir p r (s i)) st (fun s' st' =>
      PreRel (IsShamir (V := F) F t) p.t rs (off + 1) s' (internalRound p r v) ∧ ShCorr t st') := by
  obtain ⟨hs, hv, hpre⟩ := h
  have hl := length_addRcInternal p r v
  refine Spec.bind (spec_firstSboxPrecompShamir (addRcInternalShamir_cols p r hs)
    (by rw [hl, hv]; exact t_pos hp) hpre hoff hst) ?_
  rintro s' st' ⟨⟨h1, h2⟩, hst'⟩
  refine Spec.pure ⟨⟨?_, length_internalRound hp r hv, h2⟩, hst'⟩
  rw [internal_eq hd]
  exact matmulInternal_rel linRel_isShamir hp h1 (by simp [hl, hv])

theorem spec_externalRoundShamir (hp : p.WF) (hd : p.d = 5) {r : Nat}
    (hr : r < p.roundsFBeginning + p.roundsFEnd) {s : Fin n → List F}
    {v : List F} (h : StateRel (IsShamir (V := F) F t) p.t off s v) (hst : ShCorr t st) :
    Spec (M := M) (fun i => externalRoundShamir p r (s i)) st (fun s' st' =>
      StateRel (IsShamir (V := F) F t) p.t (off + 0) s' (externalRound p r v) ∧ ShCorr t st') := by
  obtain ⟨hs, hv⟩ := h
  have hl := length_addRcExternal hp hr hv
  refine Spec.bind (spec_sboxShamir (addRcExternalShamir_cols p r hs) hst) ?_
  rintro s' st' ⟨h1, hst'⟩
  refine Spec.pure ⟨⟨?_, length_externalRound hp hr hv⟩, hst'⟩
  rw [external_eq hd]
  exact matmulExternal_rel linRel_isShamir hp h1 (by simp [hl])

theorem spec_internalRoundShamir (hp : p.WF) (hd : p.d = 5) {r : Nat} {s : Fin n → List F}
    {v : List F} (h : StateRel (IsShamir (V := F) F t) p.t off s v) (hst : ShCorr t st) :
    Spec (M := M) (fun i => internalRoundShamir p r (s i)) st (fun s' st' =>
      StateRel (IsShamir (V := F) F t) p.t (off + 0) s' (internalRound p r v) ∧ ShCorr t st') := by
  obtain ⟨hs, hv⟩ := h
  have hl := length_addRcInternal p r v
  refine Spec.bind (spec_firstSboxShamir (addRcInternalShamir_cols p r hs)
    (by rw [hl, hv]; exact t_pos hp) hst) ?_
  rintro s' st' ⟨h1, hst'⟩
  refine Spec.pure ⟨⟨?_, length_internalRound hp r hv⟩, hst'⟩
  rw [internal_eq hd]
  exact matmulInternal_rel linRel_isShamir hp h1 (by simp [hl, hv])

theorem spec_externalRoundPackedShamir (hp : p.WF) (hd : p.d = 5) {r : Nat}
    (hr : r < p.roundsFBeginning + p.roundsFEnd) {s : Fin n → List F × Precomputations F}
    {v : List (List F)} (hoff : off + k * p.t ≤ rs.length)
    (h : PackRel (IsShamir (V := F) F t) p.t k rs off s v) (hst : ShCorr t st) :
    Spec (M := M) (fun i => externalRoundPackedShamir p r (s i)) st (fun s' st' =>
      PackRel (IsShamir (V := F) F t) p.t k rs (off + k * p.t) s' (v.map (externalRound p r)) ∧
        ShCorr t st') := by
  obtain ⟨hs, ⟨hv, hk⟩, hpre⟩ := h
  have hrc := Cols.mapChunks hs (t_pos hp) (f := fun _ => addRcExternal p r) (g := addRcExternal p r)
    (fun y ws hl hy => addRcExternalShamir_cols p r hy)
  rw [mapChunks_flatten (t_pos hp) hv] at hrc
  have hl : ((v.map (addRcExternal p r)).flatten).length = k * p.t := by
    rw [length_flatten_const (t := p.t) (by
      intro u hu
      obtain ⟨w, hw, rfl⟩ := List.mem_map.mp hu
      exact length_addRcExternal hp hr (hv w hw)), List.length_map, hk]
  refine Spec.bind (spec_sboxPrecompShamir hrc hpre (by omega) hst) ?_
  rintro s' st' ⟨⟨h1, h2⟩, hst'⟩
  rw [hl] at h2
  have hlen : ∀ u ∈ v.map (externalRound p r), u.length = p.t := by
    intro u hu
    obtain ⟨w, hw, rfl⟩ := List.mem_map.mp hu
    exact length_externalRound hp hr (hv w hw)
  refine Spec.pure ⟨⟨?_, ⟨hlen, by simp [hk]⟩, h2⟩, hst'⟩
  have hm := Cols.mapChunks h1 (t_pos hp) (f := fun i => matmulExternal) (g := matmulExternal)
    (fun y ws hl hy => matmulExternal_rel linRel_isShamir hp hy hl)
  rw [List.map_flatten, List.map_map, mapChunks_flatten (t_pos hp) (by
    intro u hu
    obtain ⟨w, hw, rfl⟩ := List.mem_map.mp hu
    simp [length_addRcExternal hp hr (hv w hw)]), List.map_map] at hm
  refine cast ?_ hm
  congr 2
  exact List.map_congr_left fun u _ => (external_eq hd r u).symm

theorem spec_internalRoundPackedShamir (hp : p.WF) (hd : p.d = 5) {r : Nat}
    {s : Fin n → List F × Precomputations F}
    {v : List (List F)} (hoff : off + k ≤ rs.length)
    (h : PackRel (IsShamir (V := F) F t) p.t k rs off s v) (hst : ShCorr t st) :
    Spec (M := M) (fun i => internalRoundPackedShamir p r (s i)) st (fun s' st' =>
      PackRel (IsShamir (V := F) F t) p.t k rs (off + k) s' (v.map (internalRound p r)) ∧ ShCorr t st') := by
  obtain ⟨hs, ⟨hv, hk⟩, hpre⟩ := h
  have hrc := Cols.mapChunks hs (t_pos hp) (f := fun _ => addRcInternal p r) (g := addRcInternal p r)
    (fun y ws hl hy => addRcInternalShamir_cols p r hy)
  rw [mapChunks_flatten (t_pos hp) hv] at hrc
  have hrl : ∀ u ∈ v.map (addRcInternal p r), u.length = p.t := by
    intro u hu
    obtain ⟨w, hw, rfl⟩ := List.mem_map.mp hu
    rw [length_addRcInternal, hv w hw]
  have hst1 := Cols.stepBy hrc p.t
  rw [stepBy_flatten (t_pos hp) hrl] at hst1
  have hl : ((v.map (addRcInternal p r)).flatMap (List.take 1)).length = k := by
    rw [List.flatMap_def, length_flatten_const (t := 1), List.length_map, List.length_map, hk, Nat.mul_one]
    intro u hu
    obtain ⟨w, hw, rfl⟩ := List.mem_map.mp hu
    have := hrl w hw
    have := t_pos hp
    simp; omega
  refine Spec.bind (Q₁ := fun (s' : Fin n → List F × Precomputations F) st' =>
    (Cols (IsShamir (V := F) F t) (fun i => (s' i).1)
      (((v.map (addRcInternal p r)).map (onFirst (· ^ 5))).flatten) ∧
    IsPrecomputed (IsShamir (V := F) F t) (fun i => (s' i).2) rs (off + k)) ∧ ShCorr t st') ?_ ?_
  · refine Spec.bind (spec_sboxPrecompShamir hst1 hpre (by omega) hst) ?_
    rintro s' st' ⟨⟨h1, h2⟩, hst'⟩
    rw [hl] at h2
    refine Spec.pure ⟨⟨?_, h2⟩, hst'⟩
    have := Cols.setBy hrc h1 p.t
    rw [setBy_flatten (t_pos hp) hrl] at this
    exact this
  · rintro s' st' ⟨⟨h1, h2⟩, hst'⟩
    have hlen : ∀ u ∈ v.map (internalRound p r), u.length = p.t := by
      intro u hu
      obtain ⟨w, hw, rfl⟩ := List.mem_map.mp hu
      exact length_internalRound hp r (hv w hw)
    refine Spec.pure ⟨⟨?_, ⟨hlen, by simp [hk]⟩, h2⟩, hst'⟩
    have hm := Cols.mapChunks h1 (t_pos hp) (f := fun i => matmulInternal p.diagM1)
      (g := matmulInternal p.diagM1) (fun y ws hl hy => matmulInternal_rel linRel_isShamir hp hy hl)
    rw [mapChunks_flatten (t_pos hp) (by
      intro u hu
      obtain ⟨w, hw, rfl⟩ := List.mem_map.mp hu
      simp [hrl w hw]), List.map_map, List.map_map] at hm
    refine cast ?_ hm
    congr 2
    exact List.map_congr_left fun u _ => (internal_eq hd r u).symm

/-! Permutations -/

theorem spec_permutationPrecompShamir (hp : p.WF) (hd : p.d = 5) {x : Fin n → List F} {v : List F}
    (hx : IsShamirs F t x v) (hv : v.length = p.t) {pre : Fin n → Precomputations F}
    (hpre : IsPrecomputed (IsShamir (V := F) F t) pre rs off) (hoff : off + p.numSbox ≤ rs.length)
    (hst : ShCorr t st) :
    Spec (M := M) (fun i => permutationPrecompShamir p (x i) (pre i)) st (fun s st' =>
      IsShamirs F t (fun i => (s i).1) (permutationRounds p (matmulExternal v)) ∧
      IsPrecomputed (IsShamir (V := F) F t) (fun i => (s i).2) rs (off + p.numSbox) ∧ ShCorr t st') := by
  simp only [permutationPrecompShamir, checked, if_pos (⟨hp.size, hd⟩ : ValidSize p.t ∧ p.d = 5)]
  refine (spec_rounds p (Rel := PreRel (IsShamir (V := F) F t) p.t rs) (I := ShCorr t) (N := rs.length)
    (ce := p.t) (ci := 1)
    (ext := externalRoundPrecompShamir p) (int := internalRoundPrecompShamir p) (ext' := externalRound p)
    (int' := internalRound p)
    (fun r hr off s v st hoff h hst => spec_externalRoundPrecompShamir hp hd hr hoff h hst)
    (fun r hr off s v st hoff h hst => spec_internalRoundPrecompShamir hp hd hoff h hst)
    (off := off) (s := fun i => (matmulExternal (x i), pre i)) (v := matmulExternal v)
    (by unfold Params.numSbox at hoff; omega)
    ⟨matmulExternal_rel linRel_isShamir hp hx hv, length_first hp hv, hpre⟩ hst).mono ?_
  rintro s st' ⟨⟨h1, _, h2⟩, hst'⟩
  rw [← permutationRounds_eq] at h1
  refine ⟨h1, ?_, hst'⟩
  rw [Params.numSbox, ← Nat.add_assoc, ← Nat.mul_one p.roundsP]
  exact h2

theorem spec_permutationShamir (hp : p.WF) (hd : p.d = 5) {x : Fin n → List F} {v : List F}
    (hx : IsShamirs F t x v) (hv : v.length = p.t) (hst : ShCorr t st) :
    Spec (M := M) (fun i => permutationShamir p (x i)) st (fun s st' =>
      IsShamirs F t s (permutationRounds p (matmulExternal v)) ∧ ShCorr t st') := by
  simp only [permutationShamir, checked, if_pos (⟨hp.size, hd⟩ : ValidSize p.t ∧ p.d = 5)]
  refine (spec_rounds p (Rel := StateRel (IsShamir (V := F) F t) p.t) (I := ShCorr t) (N := 0)
    (ce := 0) (ci := 0)
    (ext := externalRoundShamir p) (int := internalRoundShamir p) (ext' := externalRound p)
    (int' := internalRound p)
    (fun r hr off s v st hoff h hst => spec_externalRoundShamir hp hd hr h hst)
    (fun r hr off s v st hoff h hst => spec_internalRoundShamir hp hd h hst)
    (off := 0) (s := fun i => matmulExternal (x i)) (v := matmulExternal v)
    (by simp)
    ⟨matmulExternal_rel linRel_isShamir hp hx hv, length_first hp hv⟩ hst).mono ?_
  rintro s st' ⟨⟨h1, _⟩, hst'⟩
  rw [← permutationRounds_eq] at h1
  exact ⟨h1, hst'⟩

theorem spec_permutationPackedShamir (hp : p.WF) (hd : p.d = 5) {x : Fin n → List F} {v : List (List F)}
    (hx : IsShamirs F t x v.flatten) (hv : ∀ u ∈ v, u.length = p.t) {pre : Fin n → Precomputations F}
    (hpre : IsPrecomputed (IsShamir (V := F) F t) pre rs off) (hoff : off + p.numSbox * v.length ≤ rs.length)
    (hst : ShCorr t st) :
    Spec (M := M) (fun i => permutationPackedShamir p (x i) (pre i)) st (fun s st' =>
      IsShamirs F t (fun i => (s i).1) (v.map fun u => permutationRounds p (matmulExternal u)).flatten ∧
      IsPrecomputed (IsShamir (V := F) F t) (fun i => (s i).2) rs (off + p.numSbox * v.length) ∧
        ShCorr t st') := by
  have hlen : ∀ i, (x i).length % p.t = 0 := by
    intro i
    rw [Cols.length (P := IsShamir (V := F) F t) hx i, length_flatten_const hv]
    exact Nat.mul_mod_left _ _
  simp only [permutationPackedShamir, checked, if_pos (⟨hp.size, hd⟩ : ValidSize p.t ∧ p.d = 5), hlen, ne_eq,
    not_true_eq_false, if_false]
  have e : (p.roundsFBeginning + p.roundsFEnd) * (v.length * p.t) + p.roundsP * v.length =
      p.numSbox * v.length := by
    unfold Params.numSbox; ring
  have hm := Cols.mapChunks (show Cols (IsShamir (V := F) F t) x v.flatten from hx) (t_pos hp)
    (f := fun i => matmulExternal)
    (g := matmulExternal) (fun y ws hl hy => matmulExternal_rel linRel_isShamir hp hy hl)
  rw [mapChunks_flatten (t_pos hp) hv] at hm
  refine (spec_rounds p (Rel := PackRel (IsShamir (V := F) F t) p.t v.length rs) (I := ShCorr t)
    (N := rs.length) (ce := v.length * p.t) (ci := v.length)
    (ext := externalRoundPackedShamir p) (int := internalRoundPackedShamir p)
    (ext' := fun r v => v.map (externalRound p r)) (int' := fun r v => v.map (internalRound p r))
    (fun r hr off s v st hoff h hst => spec_externalRoundPackedShamir hp hd hr hoff h hst)
    (fun r hr off s v st hoff h hst => spec_internalRoundPackedShamir hp hd hoff h hst)
    (off := off) (s := fun i => (mapChunks matmulExternal p.t (x i), pre i)) (v := v.map matmulExternal)
    (by omega)
    ⟨hm, ⟨by
      intro u hu
      obtain ⟨w, hw, rfl⟩ := List.mem_map.mp hu
      exact length_first hp (hv w hw), by simp⟩, hpre⟩ hst).mono ?_
  rintro s st' ⟨⟨h1, _, h2⟩, hst'⟩
  rw [roundsPlain_map, List.map_map] at h1
  refine ⟨?_, ?_, hst'⟩
  · refine cast ?_ h1
    simp only [permutationRounds_eq]
    rfl
  · rw [← e, ← Nat.add_assoc]; exact h2

end Verif.Poseidon2
