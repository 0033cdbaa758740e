import Verif.Gadgets.Poseidon2Lin
import Verif.Spec.Poseidon2

/-!
# Poseidon2: loops over the rounds, precomputed powers, packing
-/

namespace Verif.Poseidon2

variable {ι S F M α β σ V : Type}

/-! ### Loops that use up precomputations -/

section Loops

variable [DecidableEq ι]

theorem spec_loop {E τ : Type} {Rel : Nat → (ι → σ) → V → Prop} {I : (ι → τ) → Prop} {N c : Nat}
    {f : ι → σ → Nat → MPC ι τ M E σ} {step : V → Nat → V} {l : List Nat}
    (h : ∀ r ∈ l, ∀ off s v st, off + c ≤ N → Rel off s v → I st →
      Spec (fun i => f i (s i) r) st (fun s' st' => Rel (off + c) s' (step v r) ∧ I st'))
    {off : Nat} {s : ι → σ} {v : V} {st : ι → τ} (hoff : off + c * l.length ≤ N) (hs : Rel off s v)
    (hI : I st) :
    Spec (fun i => l.foldlM (f i) (s i)) st
      (fun s' st' => Rel (off + c * l.length) s' (l.foldl step v) ∧ I st') := by
  induction l generalizing off s v st with
  | nil => exact Spec.pure ⟨by simpa using hs, hI⟩
  | cons r l ih =>
    have e : off + c * (r :: l).length = off + c + c * l.length := by simp; ring
    rw [e] at hoff ⊢
    simp only [List.foldlM_cons, List.foldl_cons]
    refine Spec.bind (h r (by simp) off s v st (by omega) hs hI) ?_
    rintro s' st' ⟨hs', hI'⟩
    exact ih (fun r hr => h r (by simp [hr])) hoff hs' hI'

/-- The rounds on plain values. -/
def roundsPlain (p : Params F) (external internal : Nat → V → V) (v : V) : V :=
  let v := (List.range p.roundsFBeginning).foldl (fun v r => external r v) v
  let v := (List.range p.roundsP).foldl (fun v r => internal r v) v
  (List.range' p.roundsFBeginning p.roundsFEnd).foldl (fun v r => external r v) v

theorem rounds_id (p : Params F) (external internal : Nat → V → V) (v : V) :
    rounds (m := Id) p (fun r s => external r s) (fun r s => internal r s) v =
      roundsPlain p external internal v := by
  simp only [rounds, roundsPlain]
  have : ∀ (l : List Nat) (f : V → Nat → V) (v : V), List.foldlM (m := Id) f v l = l.foldl f v := by
    intro l f v
    induction l generalizing v with
    | nil => rfl
    | cons a l ih => exact ih (f v a)
  show List.foldlM (m := Id) _ (List.foldlM (m := Id) _ (List.foldlM (m := Id) _ _ _) _) _ = _
  rw [this, this, this]

theorem spec_rounds {E τ : Type} (p : Params F) {Rel : Nat → (ι → σ) → V → Prop} {I : (ι → τ) → Prop}
    {N ce ci : Nat} {ext int : Nat → σ → MPC ι τ M E σ} {ext' int' : Nat → V → V}
    (he : ∀ r < p.roundsFBeginning + p.roundsFEnd, ∀ off s v st, off + ce ≤ N → Rel off s v → I st →
      Spec (fun i => ext r (s i)) st (fun s' st' => Rel (off + ce) s' (ext' r v) ∧ I st'))
    (hi : ∀ r < p.roundsP, ∀ off s v st, off + ci ≤ N → Rel off s v → I st →
      Spec (fun i => int r (s i)) st (fun s' st' => Rel (off + ci) s' (int' r v) ∧ I st'))
    {off : Nat} {s : ι → σ} {v : V} {st : ι → τ}
    (hoff : off + (p.roundsFBeginning + p.roundsFEnd) * ce + p.roundsP * ci ≤ N) (hs : Rel off s v)
    (hI : I st) :
    Spec (fun i => rounds p ext int (s i)) st
      (fun s' st' => Rel (off + (p.roundsFBeginning + p.roundsFEnd) * ce + p.roundsP * ci) s'
        (roundsPlain p ext' int' v) ∧ I st') := by
  have e : (p.roundsFBeginning + p.roundsFEnd) * ce = ce * p.roundsFBeginning + ce * p.roundsFEnd := by ring
  have e' : p.roundsP * ci = ci * p.roundsP := by ring
  unfold rounds
  refine Spec.bind (spec_loop (c := ce) (N := N) (f := fun _ s r => ext r s) (step := fun v r => ext' r v)
    (fun r hr => he r (by simp at hr; omega)) (by simp; omega) hs hI) ?_
  rintro s1 st1 ⟨hs1, hI1⟩
  refine Spec.bind (spec_loop (c := ci) (N := N) (f := fun _ s r => int r s) (step := fun v r => int' r v)
    (fun r hr => hi r (by simpa using hr)) (by simp; omega) hs1 hI1) ?_
  rintro s2 st2 ⟨hs2, hI2⟩
  refine (spec_loop (c := ce) (N := N) (f := fun _ s r => ext r s) (step := fun v r => ext' r v)
    (fun r hr => he r (by simp [List.mem_range'] at hr; omega)) (by simp; omega) hs2 hI2).mono ?_
  rintro s3 st3 ⟨hs3, hI3⟩
  refine ⟨?_, hI3⟩
  simp only [List.length_range, List.length_range'] at hs3
  have e2 : off + (p.roundsFBeginning + p.roundsFEnd) * ce + p.roundsP * ci =
      off + ce * p.roundsFBeginning + ci * p.roundsP + ce * p.roundsFEnd := by
    rw [e, e']; omega
  rw [e2]
  exact hs3

end Loops

/-! ### Precomputed powers -/

/-- Shares of the powers of one value. -/
def PowRel [Monoid F] (P : (ι → S) → F → Prop) (q : ι → S × S × S × S × S) (v : F) : Prop :=
  P (fun i => (q i).1) v ∧ P (fun i => (q i).2.1) (v ^ 2) ∧ P (fun i => (q i).2.2.1) (v ^ 3) ∧
    P (fun i => (q i).2.2.2.1) (v ^ 4) ∧ P (fun i => (q i).2.2.2.2) (v ^ 5)

theorem Cols.of_map {γ : Type} {P : (ι → α) → β → Prop} {g : γ → β} {x : ι → List α} {vs : List γ} :
    Cols P x (vs.map g) ↔ Cols (fun x v => P x (g v)) x vs := by
  unfold Cols
  constructor
  · rintro ⟨l, rfl, hl⟩
    exact ⟨l, rfl, (List.forall₂_map_right_iff).mp hl⟩
  · rintro ⟨l, rfl, hl⟩
    exact ⟨l, rfl, (List.forall₂_map_right_iff).mpr hl⟩

section

variable [CommRing F] {P : (ι → S) → F → Prop} {pre : ι → Precomputations S} {rs : List F} {used : Nat}

theorem IsPrecomputed.zip (h : IsPrecomputed P pre rs used) :
    Cols (PowRel P) (fun i => (pre i).r.zip ((pre i).r2.zip ((pre i).r3.zip ((pre i).r4.zip (pre i).r5)))) rs := by
  have hz := Cols.zip h.r (Cols.zip h.r2 (Cols.zip h.r3 (Cols.zip h.r4 h.r5)))
  have e : rs.zip ((rs.map (· ^ 2)).zip ((rs.map (· ^ 3)).zip ((rs.map (· ^ 4)).zip (rs.map (· ^ 5))))) =
      rs.map fun v => (v, v ^ 2, v ^ 3, v ^ 4, v ^ 5) := by
    rw [List.zip_map', List.zip_map', List.zip_map']
    have := List.zip_map' (f := fun v : F => v) (g := fun v : F => (v ^ 2, v ^ 3, v ^ 4, v ^ 5)) (l := rs)
    simpa using this
  rw [e, Cols.of_map] at hz
  exact hz

theorem IsPrecomputed.slice (h : IsPrecomputed P pre rs used) {k : Nat} (hk : used + k ≤ rs.length) :
    ∃ q : ι → List (S × S × S × S × S), (∀ i, (pre i).slice k = some (q i)) ∧
      Cols (PowRel P) q ((rs.drop used).take k) := by
  refine ⟨_, fun i => ?_, (h.zip.drop used).take k⟩
  have h1 := h.r.length i
  have h2 := h.r2.length i
  have h3 := h.r3.length i
  have h4 := h.r4.length i
  have h5 := h.r5.length i
  simp only [List.length_map] at h2 h3 h4 h5
  rw [Precomputations.slice, h.offset i, if_pos (by omega)]

theorem IsPrecomputed.advance (h : IsPrecomputed P pre rs used) (k : Nat) :
    IsPrecomputed P (fun i => (pre i).advance k) rs (used + k) :=
  ⟨h.r, h.r2, h.r3, h.r4, h.r5, fun i => by simp [Precomputations.advance, h.offset i]⟩

/-- Opening `x - r` and expanding the fifth power. -/
theorem powers_value {vs ρs : List F} (h : vs.length = ρs.length) :
    List.zipWith (fun y ρ => (y + ρ) ^ 5) (List.zipWith (· - ·) vs ρs) ρs = vs.map (· ^ 5) := by
  induction vs generalizing ρs with
  | nil => simp
  | cons v vs ih =>
    cases ρs with
    | nil => simp at h
    | cons ρ ρs => simp [ih (ρs := ρs) (by simpa using h)]

end

theorem singleSbox_eq [CommRing F] (d : Nat) (x : F) : singleSbox d x = x ^ d := by
  unfold singleSbox
  split
  · ring
  · ring
  · ring
  · rfl

/-! ### Packing -/

theorem stepBy_flatten {n : Nat} (hn : 0 < n) {ls : List (List α)} (h : ∀ l ∈ ls, l.length = n) :
    stepBy n ls.flatten = ls.flatMap (List.take 1) := by
  induction ls with
  | nil => simp [stepBy]
  | cons l ls ih =>
    have hl := h l (by simp)
    match l, hl with
    | [], hl => simp at hl; omega
    | x :: l, hl =>
      rw [List.flatten_cons, List.cons_append, stepBy, if_neg (by omega), ← List.cons_append, List.drop_left' hl,
        ih fun l hl => h l (by simp [hl])]
      simp

theorem setBy_flatten {n : Nat} (hn : 0 < n) {ls : List (List α)} (h : ∀ l ∈ ls, l.length = n) (f : α → α) :
    setBy n ls.flatten ((ls.flatMap (List.take 1)).map f) = (ls.map (onFirst f)).flatten := by
  induction ls with
  | nil => simp [setBy]
  | cons l ls ih =>
    have hl := h l (by simp)
    match l, hl with
    | [], hl => simp at hl; omega
    | x :: l, hl =>
      have hl' : l.length = n - 1 := by simp at hl; omega
      simp only [List.flatten_cons, List.cons_append, List.flatMap_cons, List.take_succ_cons, List.take_zero,
        List.nil_append, List.map_cons]
      rw [setBy, if_neg (by omega), List.take_left' hl', List.drop_left' hl', ih fun l hl => h l (by simp [hl])]
      simp [onFirst]

theorem Cols.stepBy {P : (ι → α) → β → Prop} {x : ι → List α} {vs : List β} (h : Cols P x vs) (n : Nat) :
    Cols P (fun i => stepBy n (x i)) (Poseidon2.stepBy n vs) := by
  induction hm : vs.length using Nat.strong_induction_on generalizing x vs with
  | _ m ih =>
    cases vs with
    | nil => obtain ⟨l, rfl, hl⟩ := h; cases hl; simpa [Poseidon2.stepBy] using Cols.nil
    | cons v vs =>
      have hd := h.drop n
      obtain ⟨x0, xs, rfl, h0, hs⟩ := Cols.uncons h
      by_cases hn : n = 0
      · subst hn; simpa [Poseidon2.stepBy] using Cols.nil
      · have e : (fun i => Poseidon2.stepBy n (x0 i :: xs i)) =
            fun i => x0 i :: Poseidon2.stepBy n ((x0 i :: xs i).drop n) := by
          funext i; rw [Poseidon2.stepBy, if_neg hn]
        rw [e, Poseidon2.stepBy, if_neg hn]
        exact Cols.cons h0 (ih _ (by simp at hm ⊢; omega) hd rfl)

theorem Cols.setBy {P : (ι → α) → β → Prop} {x y : ι → List α} {vs ws : List β} (h : Cols P x vs)
    (h' : Cols P y ws) (n : Nat) :
    Cols P (fun i => setBy n (x i) (y i)) (Poseidon2.setBy n vs ws) := by
  induction hm : vs.length using Nat.strong_induction_on generalizing x vs y ws with
  | _ m ih =>
    cases vs with
    | nil => obtain ⟨l, rfl, hl⟩ := h; cases hl; simpa [Poseidon2.setBy] using Cols.nil
    | cons v vs =>
      cases ws with
      | nil =>
        obtain ⟨l', rfl, hl'⟩ := h'; cases hl'
        obtain ⟨x0, xs, rfl, h0, hs⟩ := Cols.uncons h
        simpa [Poseidon2.setBy] using h
      | cons w ws =>
        obtain ⟨x0, xs, rfl, h0, hs⟩ := Cols.uncons h
        obtain ⟨y0, ys, rfl, h0', hs'⟩ := Cols.uncons h'
        by_cases hn : n = 0
        · subst hn; simpa [Poseidon2.setBy] using h
        · have e : (fun i => Poseidon2.setBy n (x0 i :: xs i) (y0 i :: ys i)) =
              fun i => y0 i :: ((xs i).take (n - 1) ++ Poseidon2.setBy n ((xs i).drop (n - 1)) (ys i)) := by
            funext i; rw [Poseidon2.setBy, if_neg hn]
          rw [e, Poseidon2.setBy, if_neg hn]
          exact Cols.cons h0' (Cols.append (hs.take _) (ih _ (by simp at hm ⊢; omega) (hs.drop _) hs' rfl))

/-- Rounds on a list of states are rounds on every state. -/
theorem roundsPlain_map (p : Params F) (ext int : Nat → V → V) (vs : List V) :
    roundsPlain p (fun r vs => vs.map (ext r)) (fun r vs => vs.map (int r)) vs =
      vs.map (roundsPlain p ext int) := by
  have : ∀ (l : List Nat) (f : Nat → V → V) (vs : List V),
      l.foldl (fun vs r => vs.map (f r)) vs = vs.map fun v => l.foldl (fun v r => f r v) v := by
    intro l f vs
    induction l generalizing vs with
    | nil => simp
    | cons a l ih => simp [ih]
  simp only [roundsPlain, this, List.map_map]
  rfl

end Verif.Poseidon2
