import Verif.Bridge.Rep3ToShamir
import Verif.Shamir.KingLemmas
import Verif.Spec.Sharing
import Mathlib.Tactic.FieldSimp
import Mathlib.Tactic.LinearCombination
import Mathlib.Tactic.Module
import Mathlib.Tactic.NormNum

/-!
# Lemmas: translating shares
-/

namespace Verif.Bridge

open Shamir PartyID

variable {F V R M : Type} [Field F] [DecidableEq F] [AddCommGroup V] [Module F V]

theorem lineAt_eq {z a : Nat} (hz : (z : F) ≠ 0) : lineAt F z a = some (1 - (a : F) * (z : F)⁻¹) := by
  simp only [lineAt, interpolateFromSecretAndZeros, interpolationPolyFromZeroPoints, List.foldl_cons,
    List.foldl_nil, inverse?, one_mul, neg_eq_zero, hz, if_false, polyTimesRoot, timesRootGo,
    polyWithZerosFromPrecomputed, evaluatePoly_eq, Option.bind_eq_bind, Option.bind_some, Option.pure_def,
    List.map_cons, List.map_nil, horner_cons, horner_nil, smul_eq_mul, Option.some.injEq]
  field_simp
  ring

omit [DecidableEq F] in
theorem two_ne (hF : PointsDistinct F 3) : (2 : F) ≠ 0 := fun h => by
  have := hF 2 0 (by omega) (by omega) (by simpa using h); omega

omit [DecidableEq F] in
theorem three_ne (hF : PointsDistinct F 3) : (3 : F) ≠ 0 := fun h => by
  have := hF 3 0 (by omega) (by omega) (by simpa using h); omega

/-- The sharing polynomial: `x0` on the line with zero at party 2, and so on. -/
theorem translate_isShamir (hF : PointsDistinct F 3) {s : PartyID → Share V} {v : V} (h : IsShare s v) :
    ∃ r : Fin 3 → V, (∀ i, translateRepshare F (s (party3 i)) (party3 i) = some (r i)) ∧
      IsShamir F 1 r v := by
  obtain ⟨hb, rfl⟩ := h
  have h2 := two_ne hF
  have h3 := three_ne hF
  have hb0 := hb ID0
  have hb1 := hb ID1
  have hb2 := hb ID2
  simp only [ID0_prev, ID1_prev, ID2_prev] at hb0 hb1 hb2
  refine ⟨fun i => polyAt 1 (fun k => if k = 0 then (s ID0).a + (s ID1).a + (s ID2).a else
      -((3 : F)⁻¹ • (s ID0).a + (s ID1).a + (2 : F)⁻¹ • (s ID2).a)) ((i.val + 1 : Nat) : F),
    ?_, _, if_pos rfl, fun i => rfl⟩
  intro i
  have e1 : ((1 : Nat) : F) ≠ 0 := by simp
  have e2 : ((2 : Nat) : F) ≠ 0 := by simpa using h2
  have e3 : ((3 : Nat) : F) ≠ 0 := by simpa using h3
  match i with
  | 0 =>
    simp only [translateRepshare, translationPoints, party3, toNat, if_true, Option.bind_eq_bind,
      lineAt_eq e3, Option.bind_some, Option.pure_def, polyAt, Finset.sum_range_succ, Finset.sum_range_zero,
      hb0, Option.some.injEq, show (0 : Nat) = 2 ↔ False by decide, if_false, Nat.zero_add, Nat.reduceAdd,
      lineAt_eq e2]
    simp
    match_scalars <;> field_simp <;> norm_num
  | 1 =>
    simp only [translateRepshare, translationPoints, party3, toNat, Option.bind_eq_bind,
      lineAt_eq e3, Option.bind_some, Option.pure_def, polyAt, Finset.sum_range_succ, Finset.sum_range_zero,
      hb1, Option.some.injEq, show (1 : Nat) = 2 ↔ False by decide, show (1 : Nat) = 0 ↔ False by decide,
      if_false, Nat.reduceAdd, lineAt_eq e1]
    simp
    match_scalars <;> field_simp <;> norm_num
  | 2 =>
    simp only [translateRepshare, translationPoints, party3, toNat, Option.bind_eq_bind, if_true,
      lineAt_eq e1, Option.bind_some, Option.pure_def, polyAt, Finset.sum_range_succ, Finset.sum_range_zero,
      hb2, Option.some.injEq, show (2 : Nat) = 0 ↔ False by decide,
      if_false, Nat.reduceAdd, lineAt_eq e2]
    simp
    match_scalars <;> field_simp <;> norm_num

theorem translateVec_isShamir (hF : PointsDistinct F 3) {s : PartyID → List (Share V)} {vs : List V}
    (h : IsShares s vs) :
    ∃ r : Fin 3 → List V, (∀ i, translateRepshareVec F (s (party3 i)) (party3 i) = some (r i)) ∧
      IsShamirs F 1 r vs := by
  obtain ⟨l, rfl, hl⟩ := h
  induction hl with
  | nil =>
    obtain ⟨r, hr, -⟩ := translate_isShamir hF (V := V) (s := fun _ => ⟨0, 0⟩) (v := 0)
      ⟨fun _ => rfl, by simp⟩
    refine ⟨fun _ => [], fun i => ?_, [], rfl, .nil⟩
    have := hr i
    simp only [translateRepshare, translateRepshareVec] at this ⊢
    cases hp : translationPoints F (party3 i) with
    | none => rw [hp] at this; simp at this
    | some p => simp
  | @cons s v l vs h hl ih =>
    obtain ⟨r, hr, hs⟩ := ih
    obtain ⟨r1, hr1, hs1⟩ := translate_isShamir hF h
    obtain ⟨l', rfl, hl'⟩ := hs
    refine ⟨fun i => r1 i :: l'.map (· i), fun i => ?_, r1 :: l', rfl, .cons hs1 hl'⟩
    have h1 := hr1 i
    have h2 := hr i
    simp only [translateRepshare, translateRepshareVec] at h1 h2 ⊢
    cases hp : translationPoints F (party3 i) with
    | none => rw [hp] at h1; simp at h1
    | some p =>
      rw [hp] at h1 h2
      simp at h1 h2
      simp [h1, h2]

/-- The Lagrange coefficient of a party's own point among the three points. -/
def own (F : Type) [Field F] : Fin 3 → F
  | 0 => 3
  | 1 => -3
  | 2 => 1

omit [DecidableEq F] in
theorem lag_own (hF : PointsDistinct F 3) (i : Fin 3) :
    lag F (openPoints i 3) (point i) = own F i := by
  have h2 := two_ne hF
  have h3 := three_ne hF
  match i with
  | 0 =>
    have : (openPoints (0 : Fin 3) 3).toFinset.erase 1 = {2, 3} := by decide
    simp [lag, Lagrange.basis, Lagrange.basisDivisor, point, own]
    rw [this]
    simp
    have e : (1 : F) - 3 = -2 := by norm_num
    have e' : (1 : F) - 2 = -1 := by norm_num
    rw [e, e']
    field_simp
  | 1 =>
    have : (openPoints (1 : Fin 3) 3).toFinset.erase 2 = {1, 3} := by decide
    simp [lag, Lagrange.basis, Lagrange.basisDivisor, point, own]
    rw [this]
    simp
    field_simp
    norm_num
  | 2 =>
    have : (openPoints (2 : Fin 3) 3).toFinset.erase 3 = {1, 2} := by decide
    simp [lag, Lagrange.basis, Lagrange.basisDivisor, point, own]
    rw [this]
    simp
    have e : (3 : F) - 1 = 2 := by norm_num
    have e' : (3 : F) - 2 = 1 := by norm_num
    rw [e, e']
    field_simp

omit [DecidableEq F] in
theorem own_ne (hF : PointsDistinct F 3) (i : Fin 3) : own F i ≠ 0 := by
  have h3 := three_ne hF
  match i with
  | 0 => exact h3
  | 1 => simpa [own] using h3
  | 2 => simp [own]

/-- Three arbitrary values are a sharing of degree two. -/
theorem isShamir_two (hF : PointsDistinct F 3) (x : PartyID → F) :
    IsShamir F 2 (fun i : Fin 3 => x (party3 i) * (own F i)⁻¹) (x ID0 + x ID1 + x ID2) := by
  have h2 := two_ne hF
  have h3 := three_ne hF
  refine ⟨fun k => match k with
    | 0 => x ID0 + x ID1 + x ID2
    | 1 => 2⁻¹ * (-5 * (x ID0 * 3⁻¹) + 8 * (x ID1 * (-3)⁻¹) - 3 * x ID2)
    | _ => 2⁻¹ * (x ID0 * 3⁻¹ - 2 * (x ID1 * (-3)⁻¹) + x ID2), rfl, fun i => ?_⟩
  have hn : (-3 : F)⁻¹ = -(3⁻¹) := inv_neg
  match i with
  | 0 =>
    simp [polyAt, Finset.sum_range_succ, own, party3, hn]
    field_simp
    ring
  | 1 =>
    simp [polyAt, Finset.sum_range_succ, own, party3, hn]
    field_simp
    ring
  | 2 =>
    simp [polyAt, Finset.sum_range_succ, own, party3, hn]
    field_simp
    ring

theorem spec_ownLagrangeInverse {st : Fin 3 → ShamirState 3 R F} (hst : ShCorr 1 st) :
    Spec (M := M) (fun _ => ownLagrangeInverse (R := R) (F := F) (M := M)) st
      (fun r st' => (r = fun i => (own F i)⁻¹) ∧ st' = st) := by
  refine Spec.bind (Q₁ := fun r s => r = st ∧ s = st) (Spec.get ⟨rfl, rfl⟩) ?_
  rintro r s ⟨hr, hs⟩
  rw [hr, hs]
  have e : ∀ i : Fin 3, (st i).openLagrange2T = own F i :: ((openPoints i 3).map
      (lag F (openPoints i 3))).tail := by
    intro i
    rw [hst.lag2T i, ← lag_own hst.rng.field i]
    match i with
    | 0 => rfl
    | 1 => rfl
    | 2 => rfl
  simp only [e, inverse?, own_ne hst.rng.field, if_false, unwrap]
  exact Spec.pure ⟨rfl, rfl⟩

theorem spec_translateAddshare [Sample R F] [Codec M (List F)] {st : Fin 3 → ShamirState 3 R F}
    (hst : ShCorr 1 st) {x : PartyID → F} {v : F} (h : IsAdditive x v) :
    Spec (M := M) (fun i => translateAddshare (x (party3 i))) st
      (fun r st' => IsShamir F 1 r v ∧ ShCorr 1 st') := by
  obtain rfl := h
  refine Spec.bind (spec_ownLagrangeInverse hst) ?_
  rintro _ _ ⟨rfl, rfl⟩
  exact spec_degreeReduce hst (isShamir_two hst.rng.field x)

theorem spec_translateAddshareVec [Sample R F] [Codec M (List F)] {st : Fin 3 → ShamirState 3 R F}
    (hst : ShCorr 1 st) {x : PartyID → List F} {vs : List F}
    (h : ∃ l : List (PartyID → F), (x = fun i => l.map (· i)) ∧ List.Forall₂ IsAdditive l vs) :
    Spec (M := M) (fun i => translateAddshareVec (x (party3 i))) st
      (fun r st' => IsShamirs F 1 r vs ∧ ShCorr 1 st') := by
  obtain ⟨l, rfl, hl⟩ := h
  refine Spec.bind (spec_ownLagrangeInverse hst) ?_
  rintro _ _ ⟨rfl, rfl⟩
  refine spec_degreeReduceMany hst ⟨l.map fun x i => x (party3 i) * (own F i)⁻¹, ?_, ?_⟩
  · funext i; simp
  · rw [List.forall₂_map_left_iff]
    exact hl.imp fun x v h => by obtain rfl := h; exact isShamir_two hst.rng.field x

end Verif.Bridge
