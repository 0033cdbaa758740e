import Verif.Spec.Witness
import Verif.Bridge.BridgeLemmas
import Verif.Shamir.SetupLemmas
import Verif.Rep3.ArithLemmas

/-!
# Lemmas about shared witnesses
-/

namespace Verif.CoCircom

open Rep3 Shamir

variable {F R R' Seed M S P α : Type}

theorem isAdditives_of [AddCommGroup F] {e : PartyID → List F} {vs : List F} (hl : ∀ i, (e i).length = vs.length)
    (h : ∀ (k : Nat) v, vs[k]? = some v → ∃ x : PartyID → F, (∀ i, (e i)[k]? = some (x i)) ∧ IsAdditive x v) :
    IsAdditives e vs := by
  refine ⟨(List.range vs.length).map fun k i => ((e i)[k]?).getD 0, ?_, ?_⟩
  · funext i
    refine List.ext_getElem? fun k => ?_
    simp only [List.map_map, List.getElem?_map]
    by_cases hk : k < vs.length
    · simp [hk, hl]
    · simp [hk, hl]
  · rw [List.forall₂_iff_get]
    refine ⟨by simp, fun k h1 h2 => ?_⟩
    obtain ⟨x, hx, ha⟩ := h k vs[k] (List.getElem?_eq_getElem h2)
    have : (fun i => ((e i)[k]?).getD 0) = x := funext fun i => by simp [hx]
    simpa [this] using ha

theorem spec_withState {ι T : Type} [DecidableEq ι] {s : ι → T} {p : ι → MPC ι T M Err α} {st : ι → S}
    {Q : (ι → α) → Prop} (h : Spec p s (fun r _ => Q r)) :
    Spec (fun i => withState (s i) (p i)) st (fun r st' => Q r ∧ st' = st) := by
  have := wp_bind (k := fun i (x : α × T) => (Prog.ret (x.1, st i) : Prog ι M Err (α × S)))
    (Q := fun r => Q (fun i => (r i).1) ∧ (fun i => (r i).2) = st) (wp.mono h fun v hv => wp_ret ⟨hv, rfl⟩)
  exact this

theorem pushAll_length {rows : List (List α)} {xs : List α} (h : xs.length = rows.length) :
    (pushAll rows xs).length = rows.length := by simp [pushAll, h]

theorem unbatchLoop_ok {n : Nat} {rows l r : List (List α)} (hr : rows.length = n)
    (h : unbatchLoop n rows l = .ok r) :
    Rows n l ∧ r.length = n ∧ ∀ (b : Nat) (x : List α), rows[b]? = some x → ∃ y, r[b]? = some (x ++ y) ∧ IsColumn l b y := by
  induction l generalizing rows with
  | nil =>
    obtain rfl := Except.ok.inj h
    exact ⟨by simp [Rows], hr, fun b x hx => ⟨[], by simpa using hx, .nil⟩⟩
  | cons xs rest ih =>
    rw [unbatchLoop] at h
    split at h
    · cases h
    · rename_i hx
      have hx : xs.length = n := by simpa using hx
      obtain ⟨h1, h2, h3⟩ := ih (by rw [pushAll_length (hx.trans hr.symm), hr]) h
      refine ⟨?_, h2, fun b x hb => ?_⟩
      · intro r' hr'
        rcases List.mem_cons.mp hr' with rfl | hr'
        exacts [hx, h1 _ hr']
      · have hbl : b < rows.length := (List.getElem?_eq_some_iff.mp hb).1
        have hbx : b < xs.length := by omega
        obtain ⟨y, hy, hc⟩ := h3 b (x ++ [xs[b]]) (by
          simp [pushAll, List.getElem?_zipWith, hb, List.getElem?_eq_getElem hbx])
        exact ⟨xs[b] :: y, by simpa using hy, .cons (List.getElem?_eq_getElem hbx) hc⟩

theorem unbatchLoop_total {n : Nat} {rows l : List (List α)} (h : Rows n l) : ∃ r, unbatchLoop n rows l = .ok r := by
  induction l generalizing rows with
  | nil => exact ⟨_, rfl⟩
  | cons xs rest ih =>
    rw [unbatchLoop, if_neg (by simpa using h xs (by simp))]
    exact ih fun r hr => h r (by simp [hr])

theorem unbatchLoop_panic {n : Nat} {rows l : List (List α)} (h : ¬ Rows n l) :
    unbatchLoop n rows l = .error (.panic "batch size not consistent in batched witness") := by
  induction l generalizing rows with
  | nil => exact absurd (by simp [Rows]) h
  | cons xs rest ih =>
    rw [unbatchLoop]
    split
    · rfl
    · rename_i hx
      exact ih fun hr => h fun r hr' => by
        rcases List.mem_cons.mp hr' with rfl | hr'
        exacts [by simpa using hx, hr _ hr']

section Translate

variable [Field F] [DecidableEq F] [Inhabited Seed] [Sample R Seed] [Seedable R Seed] [Sample R F]
  [Codec M (List Seed)] [Codec M (List F)] {st : Fin 3 → S}

omit [Inhabited Seed] [Sample R Seed] [Seedable R Seed] [Sample R F] [Codec M (List Seed)] [Codec M (List F)] in
theorem spec_translateReplicated (hF : PointsDistinct F 3) {s : PartyID → List (Share F)} {ws : List F}
    (h : IsShares s ws) :
    Spec (M := M) (fun i => translateReplicated (S := S) (s (Bridge.party3 i))) st
      (fun r st' => IsShamirs F 1 r ws ∧ st' = st) := by
  obtain ⟨r, h1, h2⟩ := Bridge.translateVec_isShamir hF h
  have e : (fun i => translateReplicated (S := S) (M := M) (s (Bridge.party3 i))) = fun i => (MPC.netId >>= fun id =>
      match Bridge.translateRepshareVec F (s (Bridge.party3 i)) (Bridge.party3 id) with
      | some l => pure l
      | none => MPC.panicWith "called `Option::unwrap()` on a `None` value") := rfl
  rw [e]
  refine Spec.bind (Q₁ := fun v s' => v = (fun i => i) ∧ s' = st) (Spec.netId ⟨rfl, rfl⟩) ?_
  rintro v s' ⟨rfl, rfl⟩
  simp only [h1]
  exact Spec.pure ⟨h2, rfl⟩

theorem spec_translateAdditive (hF : PointsDistinct F 3) (seed : Fin 3 → Seed) {x : PartyID → List F} {ws : List F}
    (h : IsAdditives x ws) :
    Spec (M := M) (fun i => translateAdditive (S := S) R (seed i) (x (Bridge.party3 i))) st
      (fun r st' => IsShamirs F 1 r ws ∧ st' = st) := by
  have hl : ∀ i, (x i).length = ws.length := by
    obtain ⟨l, rfl, hl⟩ := h
    intro i
    simp [hl.length_eq]
  unfold translateAdditive
  simp only [hl]
  refine Spec.bind (spec_preprocessingNew (R := R) hF (by decide) (by decide) seed st) ?_
  rintro g s' ⟨hg, -, rfl⟩
  obtain ⟨s, h1, h2, -⟩ := ofPreprocessing_spec hg
  simp only [h1]
  exact spec_withState ((Bridge.spec_translateAddshareVec h2 h).mono fun _ _ h => h.1)

theorem spec_translateWitness (hF : PointsDistinct F 3) (seed : Fin 3 → Seed)
    {w : PartyID → CompressedWitness F Seed} {pub ws : List F} (hp : ∀ i, (w i).publicInputs = pub)
    (h : Represents R (fun i => (w i).witness) ws) :
    Spec (M := M) (fun i => translateWitness (S := S) R (seed i) (w (Bridge.party3 i))) st
      (fun r st' => (∀ i, (r i).publicInputs = pub) ∧ IsShamirs F 1 (fun i => (r i).witness) ws ∧ st' = st) := by
  have key : Spec (M := M) (fun i => translateShares (S := S) R (seed i) (w (Bridge.party3 i)).witness) st
      (fun r st' => IsShamirs F 1 r ws ∧ st' = st) := by
    generalize hv : (fun i => (w i).witness) = v at h
    have hv : ∀ i, (w i).witness = v i := fun i => congrFun hv i
    simp only [hv]
    cases h with
    | replicated h =>
      simp only [translateShares]
      exact spec_translateReplicated hF h
    | seededReplicated he h =>
      simp only [translateShares, expandOrFail, he, pure_bind]
      exact spec_translateReplicated hF h
    | additive h =>
      simp only [translateShares]
      exact spec_translateAdditive hF seed h
    | @seededAdditive s _ h =>
      simp only [translateShares]
      exact spec_translateAdditive (x := fun i => (s i).expandVec R) hF seed h
  refine Spec.bind key ?_
  rintro r s' ⟨h1, rfl⟩
  refine Spec.pure ⟨fun i => hp _, h1, rfl⟩

end Translate

section Uncompress

variable [CommRing F] [Sample R F] [Seedable R Seed] [Codec M (List F)] {st : PartyID → Rep3State R}

theorem spec_uncompress {w : PartyID → CompressedWitness F Seed} {pub ws : List F} (hp : ∀ i, (w i).publicInputs = pub)
    (h : Represents R (fun i => (w i).witness) ws) :
    Spec (M := M) (fun i => uncompress (w i)) st
      (fun r st' => (∀ i, (r i).publicInputs = pub) ∧ IsShares (fun i => (r i).witness) ws ∧ st' = st) := by
  have add : ∀ {x : PartyID → List F}, IsAdditives x ws → Spec (M := M) (fun i => reshareVec (R := R) (x i)) st
      (fun r st' => IsShares r ws ∧ st' = st) := by
    rintro _ ⟨l, rfl, hl⟩
    refine spec_reshareVec.mono ?_
    rintro r s' ⟨rfl, rfl⟩
    exact ⟨isShares_replicate hl, rfl⟩
  have key : Spec (M := M) (fun i => expandShares (R := R) (w i).witness) st (fun r st' => IsShares r ws ∧ st' = st) := by
    generalize hv : (fun i => (w i).witness) = v at h
    have hv : ∀ i, (w i).witness = v i := fun i => congrFun hv i
    simp only [hv]
    cases h with
    | replicated h => exact Spec.pure ⟨h, rfl⟩
    | seededReplicated he h =>
      simp only [expandShares, expandOrFail, he]
      exact Spec.pure ⟨h, rfl⟩
    | additive h => exact add h
    | seededAdditive h => exact add h
  refine Spec.bind key ?_
  rintro r s' ⟨h1, rfl⟩
  exact Spec.pure ⟨hp, h1, rfl⟩

end Uncompress

end Verif.CoCircom
