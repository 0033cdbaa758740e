import Verif.Shamir.KingLemmas

/-!
# Lemmas: inversion, division, forking
-/

namespace Verif.Shamir

variable {n : Nat} {F V R S M Seed : Type} [Field F] [AddCommGroup V] [Module F V]

section

variable [DecidableEq F] [Sample R F] [Codec M F] [Codec M (List F)]

theorem spec_rand_good {t : Nat} {st : Fin n → ShamirState n R F} (h : ShCorr t st)
    {buf : List (Fin n → F × F)} (hb : Buffered t (fun i => (st i).rng) buf)
    {rest : List (Fin n → F × F)} {p : Fin n → F × F} (he : buf = rest ++ [p]) :
    Spec (M := M) (fun _ => rand) st (fun r st' => (r = fun i => (p i).1) ∧ ShCorr t st') := by
  unfold rand
  refine Spec.bind (spec_getPair h hb) ?_
  rintro r st' (⟨rest', h1, rfl⟩ | ⟨h1, _⟩)
  · obtain ⟨rfl, h2⟩ := List.append_inj' (he.symm.trans h1) rfl
    obtain rfl : p = r := by simpa using h2
    exact Spec.pure ⟨rfl, h.setBuf fun q hq => hb.pairs q (by rw [he]; simp [hq])⟩
  · rw [he] at h1; simp at h1

theorem spec_inv_of {t : Nat} {st : Fin n → ShamirState n R F} {good : F → Prop}
    (hr : Spec (M := M) (fun _ => rand) st
      (fun r st' => (∃ ρ, IsShamir F t r ρ ∧ good ρ) ∧ ShCorr t st'))
    {a : Fin n → F} {x : F} (ha : IsShamir F t a x) :
    SpecE (M := M) (fun i => inv (a i)) st
      (AllOrNone (∃ ρ, good ρ ∧ x * ρ = 0)
        (fun r st' => x ≠ 0 ∧ IsShamir F t r x⁻¹ ∧ ShCorr t st' ∧ ∃ ρ, good ρ ∧ x * ρ ≠ 0)) := by
  unfold inv
  refine SpecE.bind hr ?_
  rintro r st₁ ⟨⟨ρ, h1, hg⟩, hst⟩
  refine SpecE.bind (spec_mulOpen hst ha h1) ?_
  rintro y st₂ ⟨rfl, rfl⟩
  by_cases h0 : x * ρ = 0
  · simp only [h0, if_true]
    exact SpecE.bail (Or.inl ⟨_, fun _ => rfl, ρ, hg, h0⟩)
  · simp only [h0, if_false]
    have hx : x ≠ 0 := left_ne_zero_of_mul h0
    have hr0 : ρ ≠ 0 := right_ne_zero_of_mul h0
    refine SpecE.pure (Or.inr ⟨fun i => mulPublic (r i) (x * ρ)⁻¹, st₂, fun _ => rfl, hx, ?_, hst, ρ, hg, h0⟩)
    have h2 := h1.smul (x * ρ)⁻¹
    have e : x⁻¹ = (x * ρ)⁻¹ • ρ := by rw [smul_eq_mul]; field_simp
    rw [e]
    exact h2

theorem spec_inv {t : Nat} {st : Fin n → ShamirState n R F} (hst : ShCorr t st)
    {a : Fin n → F} {x : F} (ha : IsShamir F t a x) :
    SpecE (M := M) (fun i => inv (a i)) st
      (AllOrNone True (fun r st' => x ≠ 0 ∧ IsShamir F t r x⁻¹ ∧ ShCorr t st')) := by
  refine (spec_inv_of (good := fun _ => True) ((spec_rand hst).mono fun r st' h =>
    ⟨⟨h.1.choose, h.1.choose_spec, trivial⟩, h.2⟩) ha).mono ?_
  rintro r (⟨e, h, _⟩ | ⟨v, st', h, h1, h2, h3, _⟩)
  · exact Or.inl ⟨e, h, trivial⟩
  · exact Or.inr ⟨v, st', h, h1, h2, h3⟩

theorem spec_div {t : Nat} {st : Fin n → ShamirState n R F} (hst : ShCorr t st)
    {a b : Fin n → F} {x y : F} (ha : IsShamir F t a x) (hb : IsShamir F t b y) :
    SpecE (M := M) (fun i => div (a i) (b i)) st
      (AllOrNone True (fun r st' => y ≠ 0 ∧ IsShamir F t r (x / y) ∧ ShCorr t st')) := by
  unfold div
  refine SpecE.bindAll (spec_inv hst hb) ?_ (fun e h => Or.inl ⟨e, fun _ => rfl, h⟩)
  rintro v st' ⟨h0, hv, hst'⟩
  refine (spec_mul hst' ha hv).specE.mono ?_
  rintro r ⟨v, st'', hr, h1, h2⟩
  exact Or.inr ⟨v, st'', hr, h0, by rwa [div_eq_mul_inv], h2⟩

theorem spec_divPublicByShared {t : Nat} {st : Fin n → ShamirState n R F} (hst : ShCorr t st)
    {b : Fin n → F} {x y : F} (hb : IsShamir F t b y) :
    SpecE (M := M) (fun i => divPublicByShared x (b i)) st
      (AllOrNone True (fun r st' => y ≠ 0 ∧ IsShamir F t r (x / y) ∧ ShCorr t st')) := by
  unfold divPublicByShared
  refine SpecE.bindAll (spec_inv hst hb) ?_ (fun e h => Or.inl ⟨e, fun _ => rfl, h⟩)
  rintro v st' ⟨h0, hv, hst'⟩
  refine SpecE.pure (Or.inr ⟨fun i => mulPublic (v i) x, st', fun _ => rfl, h0, ?_, hst'⟩)
  have := hv.smul x
  rw [div_eq_mul_inv]
  exact this

omit [DecidableEq F] [Codec M F] in
/-- One random sharing for every element of a list. -/
theorem spec_rands {t : Nat} {st : Fin n → ShamirState n R F} (hst : ShCorr t st)
    {a : Fin n → List V} {xs : List V} {d : Nat} (ha : IsShamirs F d a xs) :
    Spec (M := M) (fun i => (a i).mapM fun (_ : V) => (rand : ShamirM n R F M F)) st
      (fun r st' => (∃ ρs, ρs.length = xs.length ∧ IsShamirs F t r ρs) ∧ ShCorr t st') := by
  refine (Spec.mapCols (P := IsShamir F d) (Q := fun x (_ : Unit) => ∃ ρ, IsShamir F t x ρ)
    (g := fun _ => ()) (I := ShCorr t) ha (fun x v st _ hI => spec_rand hI) hst).mono ?_
  rintro r st' ⟨⟨l, rfl, hl⟩, hI⟩
  refine ⟨?_, hI⟩
  have hlen : l.length = xs.length := by simpa using hl.length_eq
  have : ∃ ρs, List.Forall₂ (IsShamir F t) l ρs := by
    clear hlen
    generalize xs.map (fun _ => ()) = us at hl
    induction hl with
    | nil => exact ⟨[], .nil⟩
    | cons hx _ ih =>
      obtain ⟨ρ, hρ⟩ := hx
      obtain ⟨ρs, hρs⟩ := ih
      exact ⟨ρ :: ρs, .cons hρ hρs⟩
  obtain ⟨ρs, hρ⟩ := this
  exact ⟨ρs, by rw [← hρ.length_eq, hlen], l, rfl, hρ⟩

omit [Codec M F] in
theorem spec_invVec {t : Nat} {st : Fin n → ShamirState n R F} (hst : ShCorr t st)
    {a : Fin n → List F} {xs : List F} (ha : IsShamirs F t a xs) :
    SpecE (M := M) (fun i => invVec (a i)) st
      (AllOrNone True (fun r st' => 0 ∉ xs ∧ IsShamirs F t r (xs.map (·⁻¹)) ∧ ShCorr t st')) := by
  unfold invVec
  refine SpecE.bind (spec_rands hst ha) ?_
  rintro r st₁ ⟨⟨ρs, hl, hr⟩, hst₁⟩
  refine SpecE.bind (spec_mulOpenVec hst₁ ha hr hl.symm) ?_
  rintro y st₂ ⟨rfl, rfl⟩
  by_cases h0 : (List.zipWith (· * ·) xs ρs).any (fun y => decide (y = 0)) = true
  · simp only [h0, if_true]
    exact SpecE.bail (Or.inl ⟨_, fun _ => rfl, trivial⟩)
  · simp only [h0]
    refine SpecE.pure (Or.inr ⟨_, st₂, fun _ => rfl, ?_, ?_, hst₁⟩)
    · intro hx
      obtain ⟨k, hk, hk'⟩ := List.getElem_of_mem hx
      apply h0
      rw [List.any_eq_true]
      refine ⟨(List.zipWith (· * ·) xs ρs)[k]'(by simp; omega), List.getElem_mem _, ?_⟩
      simp [hk']
    · have e : xs.map (·⁻¹) = List.zipWith (fun (r y : F) => mulPublic r y⁻¹) ρs
          (List.zipWith (· * ·) xs ρs) := by
        apply List.ext_getElem
        · simp [hl]
        · intro k h1 h2
          have hne : ¬ xs[k]'(by simpa using h1) * ρs[k]'(by simp at h1; omega) = 0 := by
            intro hz
            apply h0
            rw [List.any_eq_true]
            refine ⟨(List.zipWith (· * ·) xs ρs)[k]'(by simp at h1 ⊢; omega), List.getElem_mem _, ?_⟩
            simpa using hz
          have hx := left_ne_zero_of_mul hne
          have hρ := right_ne_zero_of_mul hne
          simp only [List.getElem_map, List.getElem_zipWith, mulPublic, smul_eq_mul]
          field_simp
      rw [e]
      have hc : Cols (fun (x : Fin n → F) (v : F) => x = fun _ => v)
          (fun _ : Fin n => List.zipWith (· * ·) xs ρs) (List.zipWith (· * ·) xs ρs) := by
        generalize List.zipWith (· * ·) xs ρs = w
        induction w with
        | nil => exact Cols.nil
        | cons x xs ih => exact Cols.cons rfl ih
      exact Cols.zipWith hr hc fun x v y u hx hy => by
        subst hy
        exact hx.smul u⁻¹

end

/-! ## Forking -/

section

variable [Sample R Seed] [Seedable R Seed]

/-- The child's and the parent's state. -/
def forkChild (Seed : Type) [Sample R Seed] [Seedable R Seed] (st : Fin n → ShamirState n R F)
    (buf : List (Fin n → F × F)) (i : Fin n) : ShamirState n R F :=
  { st i with rng := { (st i).rng with
    rngs := fun j => Seedable.fromSeed (Sample.sample ((st i).rng.rngs j) : Seed × R).1
    rT := buf.map fun p => (p i).1
    r2T := buf.map fun p => (p i).2 } }

def forkParent (Seed : Type) [Sample R Seed] (st : Fin n → ShamirState n R F)
    (buf : List (Fin n → F × F)) (i : Fin n) : ShamirState n R F :=
  { st i with rng := { (st i).rng with
    rngs := fun j => (Sample.sample ((st i).rng.rngs j) : Seed × R).2
    rT := buf.map fun p => (p i).1
    r2T := buf.map fun p => (p i).2 } }

theorem ShCorr.forkChild {t : Nat} {st : Fin n → ShamirState n R F} (h : ShCorr t st)
    {buf : List (Fin n → F × F)} (hp : ∀ p ∈ buf, IsPair t p) :
    ShCorr t (forkChild Seed st buf) := by
  refine ⟨⟨h.rng.id, h.rng.thr, h.rng.bound, h.rng.live, h.rng.field, h.rng.interpT, h.rng.interp2T,
    h.rng.matrix, ?_, ⟨buf, fun _ => rfl, fun _ => rfl, hp⟩⟩, h.lagT, h.lag2T, h.mulLag, h.zeros, h.gen⟩
  intro i j hij
  simp only [Shamir.forkChild, h.rng.sync i j hij]

omit [Seedable R Seed] in
theorem ShCorr.forkParent {t : Nat} {st : Fin n → ShamirState n R F} (h : ShCorr t st)
    {buf : List (Fin n → F × F)} (hp : ∀ p ∈ buf, IsPair t p) :
    ShCorr t (forkParent Seed st buf) := by
  refine ⟨⟨h.rng.id, h.rng.thr, h.rng.bound, h.rng.live, h.rng.field, h.rng.interpT, h.rng.interp2T,
    h.rng.matrix, ?_, ⟨buf, fun _ => rfl, fun _ => rfl, hp⟩⟩, h.lagT, h.lag2T, h.mulLag, h.zeros, h.gen⟩
  intro i j hij
  simp only [Shamir.forkParent, h.rng.sync i j hij]

theorem spec_fork {t : Nat} {st : Fin n → ShamirState n R F}
    {buf : List (Fin n → F × F)} (hb : Buffered t (fun i => (st i).rng) buf) {num : Nat}
    (hn : num ≤ buf.length) :
    Spec (M := M) (fun _ => fork (Seed := Seed) num) st (fun r st' =>
      r = forkChild Seed st (buf.take num) ∧ st' = forkParent Seed st (buf.drop num)) := by
  unfold fork
  refine spec_get_bind ?_
  have e : ∀ i, (st i).rng.forkWithPairs (Seed := Seed) num =
      some ((forkChild Seed st (buf.take num) i).rng, (forkParent Seed st (buf.drop num) i).rng) := by
    intro i
    rw [ShamirRng.forkWithPairs, if_neg (by rw [hb.rT i]; simpa using hn)]
    simp only [forkChild, forkParent, hb.rT i, hb.r2T i, List.map_take, List.map_drop]
  simp only [e]
  refine Spec.bind (spec_set (Q := fun _ st' => st' = forkParent Seed st (buf.drop num)) rfl) ?_
  rintro _ _ rfl
  exact Spec.pure ⟨rfl, rfl⟩

theorem spec_fork_fails {t : Nat} {st : Fin n → ShamirState n R F}
    {buf : List (Fin n → F × F)} (hb : Buffered t (fun i => (st i).rng) buf) {num : Nat}
    (hn : buf.length < num) :
    SpecE (M := M) (fun _ => fork (Seed := Seed) num) st (fun r =>
      ∀ i, r i = .error (.panic "not enough corr rand pairs")) := by
  have e : ∀ i, (st i).rng.forkWithPairs (Seed := Seed) num = none := by
    intro i
    rw [ShamirRng.forkWithPairs, if_pos (by rw [hb.rT i]; simpa using hn)]
  unfold fork
  refine SpecE.bind (Spec.get (Q := fun v st' => v = st ∧ st' = st) ⟨rfl, rfl⟩) ?_
  rintro v st' ⟨rfl, rfl⟩
  simp only [e]
  exact SpecE.panicWith fun _ => rfl

end

end Verif.Shamir
