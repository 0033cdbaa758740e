import Verif.Spec.PlonkDraws
import Verif.Plonk.NetSim
import Verif.Rep3.History
import Verif.Rep3.Cols

/-!
# Lemmas: how many random values the Rep3 operations draw
-/

namespace Verif.Plonk

open Rep3 PartyID

variable {R M F Seed : Type} [Field F] [DecidableEq F] [Sample R F] [Codec M (List F)] {ty : A2BType}
  {st : PartyID → Rep3State R}

omit [DecidableEq F] [Codec M (List F)] in
theorem spec_maskElem_draws : Spec (M := M) (fun _ => maskElem (F := F)) st fun _ s => s = afterRand F st :=
  spec_withRand (f := fun _ => Rep3Rand.masking) rfl

omit [DecidableEq F] [Codec M (List F)] in
theorem spec_masked_draws {X : Type} {f : PartyID → X → F → F} (n : Nat) {l : PartyID → List X} (hl : ∀ i, (l i).length = n) :
    Spec (M := M) (fun i => (l i).mapM fun x => do
        let m ← maskElem
        pure (f i x m)) st (fun _ s => s = (afterRand F)^[n] st) := by
  induction n generalizing l st with
  | zero =>
    have : ∀ i, l i = [] := fun i => List.length_eq_zero_iff.mp (hl i)
    simp only [this, List.mapM_nil]
    exact Spec.pure rfl
  | succ n ih =>
    have : ∀ i, ∃ x xs, l i = x :: xs := fun i => List.exists_cons_of_length_eq_add_one (hl i)
    choose x xs hx using this
    simp only [hx, List.mapM_cons]
    refine Spec.bind (Q₁ := fun _ s => s = afterRand F st) ?_ ?_
    · refine Spec.bind spec_maskElem_draws ?_
      rintro m _ rfl
      exact Spec.pure rfl
    · rintro v _ rfl
      refine Spec.bind (ih (l := xs) fun i => by have := hl i; rw [hx] at this; simpa using this) ?_
      rintro v _ rfl
      exact Spec.pure rfl

omit [DecidableEq F] in
theorem spec_mulVec_draws {a b : PartyID → List (Share F)} {x y : List F} (ha : IsShares a x) (hb : IsShares b y)
    (hl : x.length = y.length) (hst : Corr ty st) :
    Spec (M := M) (fun i => mulVec (a i) (b i)) st
      (fun r s => IsShares r (List.zipWith (· * ·) x y) ∧ Corr ty s ∧ s = (afterRand F)^[x.length] st) := by
  have la := Cols.length ha
  have lb := Cols.length hb
  obtain ⟨a, rfl, ha⟩ := ha
  obtain ⟨b, rfl, hb⟩ := hb
  refine Spec.bind (Spec.and' (spec_maskedZip (f := fun _ ab => ab.1.localMul ab.2) ha hb
    (fun s t v w h h' => h.localMul h') hst) (spec_masked_draws x.length fun i => ?_)) ?_
  · simp only [List.length_zip, la, lb, hl, Nat.min_self]
  rintro r st' ⟨⟨⟨rs, rfl, hrs⟩, hst'⟩, hd⟩
  refine spec_reshareVec.mono ?_
  rintro r s ⟨rfl, rfl⟩
  exact ⟨isShares_replicate hrs, hst', hd⟩

omit [DecidableEq F] in
theorem spec_mulOpenVec_draws {a b : PartyID → List (Share F)} {x y : List F} (ha : IsShares a x) (hb : IsShares b y)
    (hl : x.length = y.length) (hst : Corr ty st) :
    Spec (M := M) (fun i => mulOpenVec (a i) (b i)) st
      (fun r s => (r = fun _ => List.zipWith (· * ·) x y) ∧ Corr ty s ∧ s = (afterRand F)^[x.length] st) := by
  have la := Cols.length ha
  have lb := Cols.length hb
  refine (Spec.and' (spec_mulOpenVec ha hb hst) (Q' := fun _ s => s = (afterRand F)^[x.length] st) ?_).mono
    fun r s h => ⟨h.1.1, h.1.2, h.2⟩
  refine Spec.bind (spec_masked_draws x.length fun i => ?_) ?_
  · simp only [List.length_zip, la, lb, hl, Nat.min_self]
  rintro r _ rfl
  refine Spec.bind spec_broadcastMany ?_
  rintro v _ ⟨rfl, rfl⟩
  exact Spec.pure rfl

omit [DecidableEq F] in
theorem spec_rands_draws (n : Nat) (hst : Corr ty st) :
    Spec (M := M) (fun _ => (List.range n).mapM fun (_ : Nat) => (rand (F := F) : Rep3M R M (Share F))) st
      (fun r s => IsShares r (randValues F n st) ∧ Corr ty s ∧ s = (afterRand F)^[n] st) := by
  rw [List.range_eq_range']
  induction n generalizing st with
  | zero => exact Spec.pure ⟨isShares_nil, hst, rfl⟩
  | succ n ih =>
    rw [mapM_range_const]
    refine Spec.bind (spec_rand' hst) ?_
    rintro r _ ⟨hr, rfl⟩
    refine Spec.bind (ih (Corr.afterRand hst)) ?_
    rintro rs st' ⟨hrs, hst', hd⟩
    exact Spec.pure ⟨isShares_cons hr hrs, hst', hd⟩

theorem spec_invVec_draws {a : PartyID → List (Share F)} {x : List F} (ha : IsShares a x) (hst : Corr ty st) :
    SpecE (M := M) (fun i => invVec (a i)) st
      (AllOrNone (0 ∈ List.zipWith (· * ·) x (randValues F x.length st))
        (fun r s => 0 ∉ List.zipWith (· * ·) x (randValues F x.length st) ∧
          IsShares r (x.map (·⁻¹)) ∧ Corr ty s ∧ s = (afterRand F)^[x.length + x.length] st)) := by
  have hlen := Cols.length ha
  obtain ⟨r, l, hr, h1⟩ := spec_invVec (M := M) ha hst
  refine ⟨r, l, hr, ?_⟩
  rcases h1 with h1 | ⟨v, s, hv, h1, h2, h3⟩
  · exact .inl h1
  refine .inr ⟨v, s, hv, h1, h2, h3, ?_⟩
  have key : SpecE (M := M) (fun i => invVec (a i)) st
      (fun r => ∀ (v : PartyID → List (Share F)) (s : PartyID → Rep3State R), (∀ i, r i = .ok (v i, s i)) → s = (afterRand F)^[x.length + x.length] st) := by
    simp only [invVec, hlen]
    refine SpecE.bind (spec_rands_draws x.length hst) ?_
    rintro r st₁ ⟨hr, hst₁, rfl⟩
    refine SpecE.bind (spec_mulOpenVec_draws ha hr (by simp) hst₁) ?_
    rintro y st₂ ⟨rfl, hst₂, rfl⟩
    by_cases h0 : (List.zipWith (· * ·) x (randValues F x.length st)).any (· = 0) = true
    · simp only [h0, if_true]
      refine SpecE.bail fun v s h => ?_
      have := h ID0
      cases this
    · simp only [h0]
      refine SpecE.pure fun v s h => ?_
      funext i
      have := h i
      simp only [Except.ok.injEq, Prod.mk.injEq] at this
      rw [← this.2, ← Function.iterate_add_apply]
  obtain ⟨r', l', hr', h'⟩ := key
  have e := (hr.unique hr').1
  exact h' v s fun i => by rw [← e]; exact hv i

end Verif.Plonk
