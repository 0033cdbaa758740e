import Verif.Rep3.Point
import Verif.Rep3.ArithLemmas
import Verif.Rep3.Cols
import Mathlib.Tactic.Module
import Mathlib.Tactic.Abel

/-!
# Lemmas: replicated shares of curve points
-/

namespace Verif.Rep3.Point

open PartyID

variable {R M F V : Type} [Field F] [AddCommGroup V] [Module F V] {ty : A2BType}
variable {st : PartyID → Rep3State R} {a : PartyID → Share V} {b : PartyID → Share F} {P : V} {k : F}

theorem addAssignPublic_share (ha : IsShare a P) (c : V) :
    IsShare (fun i => addAssignPublic (a i) c i) (P + c) := by
  rw [isShare_iff] at *
  simp only [addAssignPublic]
  refine ⟨⟨ha.1.1, by rw [ha.1.2.1], ha.1.2.2⟩, ?_⟩
  rw [← ha.2]; abel

theorem subAssignPublic_share (ha : IsShare a P) (c : V) :
    IsShare (fun i => subAssignPublic (a i) c i) (P - c) := by
  rw [isShare_iff] at *
  simp only [subAssignPublic]
  refine ⟨⟨ha.1.1, by rw [ha.1.2.1], ha.1.2.2⟩, ?_⟩
  rw [← ha.2]; abel

theorem scalarMulPublicPoint_share (hb : IsShare b k) (c : V) :
    IsShare (fun i => scalarMulPublicPoint c (b i)) (k • c) := by
  refine ⟨fun i => by simp [scalarMulPublicPoint, hb.1 i], ?_⟩
  rw [← hb.2]; simp only [scalarMulPublicPoint]; module

theorem scalarMulPublicScalar_share (ha : IsShare a P) (c : F) :
    IsShare (fun i => scalarMulPublicScalar (a i) c) (c • P) := by
  refine ⟨fun i => by simp [scalarMulPublicScalar, ha.1 i], ?_⟩
  rw [← ha.2]; simp only [scalarMulPublicScalar]; module

theorem promote_share [DecidableEq V] (gen c : V) :
    IsShare (fun i => promoteToTrivialShare gen i c) c := by
  rw [isShare_iff]
  by_cases h : c = 0
  · simp [promoteToTrivialShare, h]
  · simp [promoteToTrivialShare, h]

theorem localMul_sum (hb : IsShare b k) (ha : IsShare a P) :
    localMul (b ID0) (a ID0) + localMul (b ID1) (a ID1) + localMul (b ID2) (a ID2) = k • P := by
  rw [← hb.2, ← ha.2]
  simp only [localMul, hb.b0, hb.b1, hb.b2, ha.b0, ha.b1, ha.b2]
  module

theorem sum_masks {x m : PartyID → V} {v : V} (h : x ID0 + x ID1 + x ID2 = v)
    (hm : m ID0 + m ID1 + m ID2 = 0) :
    x ID0 + m ID0 + (x ID1 + m ID1) + (x ID2 + m ID2) = v := by
  rw [← h, ← add_zero (x ID0 + x ID1 + x ID2), ← hm]; abel

theorem spec_scalarMulLocal [Sample R V] (ha : IsShare a P) (hb : IsShare b k) (hst : Corr ty st) :
    Spec (M := M) (fun i => scalarMulLocal (a i) (b i)) st
      (fun r st' => IsAdditive r (k • P) ∧ Corr ty st') := by
  refine Spec.bind (spec_masking hst) ?_
  rintro m st' ⟨hm, hst'⟩
  exact Spec.pure ⟨sum_masks (x := fun i => localMul (b i) (a i)) (localMul_sum hb ha) hm, hst'⟩

theorem spec_scalarMul [Sample R V] [Codec M (List V)] (ha : IsShare a P) (hb : IsShare b k)
    (hst : Corr ty st) :
    Spec (M := M) (fun i => scalarMul (a i) (b i)) st
      (fun r st' => IsShare r (k • P) ∧ Corr ty st') := by
  refine Spec.bind (spec_masking hst) ?_
  rintro m st' ⟨hm, hst'⟩
  refine Spec.bind spec_reshare ?_
  rintro v st'' ⟨rfl, rfl⟩
  exact Spec.pure ⟨isShare_mk (x := fun i => localMul (b i) (a i) + m i)
    (sum_masks (x := fun i => localMul (b i) (a i)) (localMul_sum hb ha) hm), hst'⟩

theorem spec_scalarMulMany [Sample R V] [Codec M (List V)] {a : PartyID → List (Share V)}
    {b : PartyID → List (Share F)} {Ps : List V} {ks : List F} (ha : IsShares a Ps)
    (hb : IsShares b ks) (hst : Corr ty st) :
    Spec (M := M) (fun i => scalarMulMany (a i) (b i)) st
      (fun r st' => IsShares r (List.zipWith (fun P (k : F) => k • P) Ps ks) ∧ Corr ty st') := by
  have hz : Cols (fun (x : PartyID → Share V × Share F) (v : V × F) =>
      IsShare (fun i => (x i).1) v.1 ∧ IsShare (fun i => (x i).2) v.2)
      (fun i => (a i).zip (b i)) (Ps.zip ks) :=
    Cols.zip ha hb
  refine Spec.bind (Spec.mapCols (Q := fun (r : PartyID → V) (v : V) => IsAdditive r v)
    (g := fun v : V × F => v.2 • v.1) (I := Corr ty) hz ?_ hst) ?_
  · rintro x ⟨P, k⟩ st ⟨h1, h2⟩ hst
    refine Spec.bind (spec_masking hst) ?_
    rintro m st' ⟨hm, hst'⟩
    exact Spec.pure ⟨sum_masks (x := fun i => localMul (x i).2 (x i).1) (localMul_sum h2 h1) hm, hst'⟩
  · rintro r st' ⟨⟨l, rfl, hl⟩, hst'⟩
    refine Spec.bind spec_reshareMany ?_
    rintro v st'' ⟨rfl, rfl⟩
    refine Spec.pure ⟨⟨l.map replicate, ?_, ?_⟩, hst'⟩
    · funext i
      rw [List.zipWith_map, List.zipWith_self, List.map_map]; rfl
    · rw [List.forall₂_map_left_iff]
      have e : List.zipWith (fun P (k : F) => k • P) Ps ks = (Ps.zip ks).map fun v => v.2 • v.1 := by
        rw [List.zip, List.map_zipWith]
      rw [e]
      exact hl.imp fun a b hab => isShare_replicate hab

theorem open_eq (ha : IsShare a P) (i : PartyID) : (a i).a + (a i).b + (a i.prev).b = P := by
  rw [← ha.2]
  cases i <;> simp [ha.b0, ha.b1, ha.b2] <;> abel

theorem spec_openPoint [Codec M (List V)] (ha : IsShare a P) :
    Spec (M := M) (fun i => openPoint (a i)) st (fun r st' => (r = fun _ => P) ∧ st' = st) := by
  refine Spec.bind spec_reshare ?_
  rintro v st'' ⟨rfl, rfl⟩
  exact Spec.pure ⟨funext (open_eq ha), rfl⟩

theorem spec_openHalfPoint [Codec M (List V)] {a : PartyID → V} (ha : IsAdditive a P) :
    Spec (M := M) (fun i => openHalfPoint (a i)) st (fun r st' => (r = fun _ => P) ∧ st' = st) := by
  refine Spec.bind spec_broadcast ?_
  rintro v st'' ⟨rfl, rfl⟩
  refine Spec.pure ⟨funext fun i => ?_, rfl⟩
  rw [← ha]
  cases i <;> simp <;> abel

theorem zipWith_open {G : Type} [AddCommGroup G] {l : List (PartyID → Share G)} {vs : List G}
    (hl : List.Forall₂ IsShare l vs) (i : PartyID) :
    List.zipWith (fun (x : Share G) c => x.a + x.b + c) (l.map (· i)) ((l.map (· i.prev)).map Share.b) =
      vs := by
  rw [List.map_map, List.zipWith_map, List.zipWith_self]
  induction hl with
  | nil => rfl
  | cons h _ ih =>
    rw [List.map_cons, ih]
    congr 1
    simp only [Function.comp]
    rw [← h.2]
    cases i <;> simp [h.b0, h.b1, h.b2] <;> abel

theorem spec_openPointMany [Codec M (List (List V))] {a : PartyID → List (Share V)} {Ps : List V}
    (ha : IsShares a Ps) :
    Spec (M := M) (fun i => openPointMany (a i)) st (fun r st' => (r = fun _ => Ps) ∧ st' = st) := by
  obtain ⟨l, rfl, hl⟩ := ha
  refine Spec.bind spec_reshare ?_
  rintro v st'' ⟨rfl, rfl⟩
  exact Spec.pure ⟨funext (zipWith_open hl), rfl⟩

theorem spec_openPointAndFieldMany [Codec M (List (List V × List F))] {a : PartyID → List (Share V)}
    {b : PartyID → List (Share F)} {Ps : List V} {ks : List F} (ha : IsShares a Ps) (hb : IsShares b ks) :
    Spec (M := M) (fun i => openPointAndFieldMany (a i) (b i)) st
      (fun r st' => (r = fun _ => (Ps, ks)) ∧ st' = st) := by
  obtain ⟨l, rfl, hl⟩ := ha
  obtain ⟨l', rfl, hl'⟩ := hb
  refine Spec.bind spec_reshare ?_
  rintro v st'' ⟨rfl, rfl⟩
  refine Spec.pure ⟨funext fun i => ?_, rfl⟩
  rw [zipWith_open hl, zipWith_open hl']

theorem spec_openPointAndField [Codec M (List (V × F))] (ha : IsShare a P) (hb : IsShare b k) :
    Spec (M := M) (fun i => openPointAndField (a i) (b i)) st
      (fun r st' => (r = fun _ => (P, k)) ∧ st' = st) := by
  refine Spec.bind spec_reshare ?_
  rintro v st'' ⟨rfl, rfl⟩
  refine Spec.pure ⟨funext fun i => ?_, rfl⟩
  rw [open_eq ha, open_eq hb]

theorem msm_share {b : PartyID → List (Share F)} {ks : List F} (points : List V) (hb : IsShares b ks) :
    IsShare (fun i => msmPublicPoints points (b i)) (msm points ks) := by
  obtain ⟨l, rfl, hl⟩ := hb
  induction points generalizing l ks with
  | nil => exact ⟨fun i => by simp [msmPublicPoints, msm], by simp [msmPublicPoints, msm]⟩
  | cons Q points ih =>
    cases hl with
    | nil => exact ⟨fun i => by simp [msmPublicPoints, msm], by simp [msmPublicPoints, msm]⟩
    | @cons s k l ks h hl =>
      have := ih _ hl
      refine ⟨fun i => ?_, ?_⟩
      · have h1 := this.1 i
        simp only [msmPublicPoints, msm, List.map_cons, List.zipWith_cons_cons, List.sum_cons] at h1 ⊢
        rw [h1, h.1 i]
      · have h1 := this.2
        simp only [msmPublicPoints, msm, List.map_cons, List.zipWith_cons_cons, List.sum_cons] at h1 ⊢
        rw [← h1, ← h.2]
        module

end Verif.Rep3.Point
