import Verif.Shamir.RngLemmas

/-!
# Lemmas: buffering and handing out double sharings
-/

namespace Verif.Shamir

variable {n : Nat} {F V R S M Seed : Type} [Field F] [AddCommGroup V] [Module F V]

section

variable [Sample R F]

/-- The pairs that a batch of size `a` adds to the buffers. -/
def freshPairs (t a : Nat) (g : Fin n → ShamirRng n R F) : List (Fin n → F × F) :=
  (List.range a).flatMap fun m => (vandermonde n F t).map fun row i =>
    (∑ c, horner (polyT t a g c m) ((point i : Nat) : F) * row c,
     ∑ c, horner (poly2 t a g c m) ((point i : Nat) : F) * row c)

@[simp] theorem vandermonde_length (t : Nat) : (vandermonde n F t).length = t + 1 := by
  simp [vandermonde]

@[simp] theorem freshPairs_length (t a : Nat) (g : Fin n → ShamirRng n R F) :
    (freshPairs t a g).length = a * (t + 1) := by
  simp [freshPairs, List.length_flatMap]

theorem freshPairs_isPair {t a : Nat} {g : Fin n → ShamirRng n R F} (h : RngCorr t g) :
    ∀ p ∈ freshPairs t a g, IsPair t p := by
  intro p hp
  simp only [freshPairs, List.mem_flatMap, List.mem_map] at hp
  obtain ⟨m, _, row, _, rfl⟩ := hp
  refine ⟨∑ c, horner (polyT t a g c m) (0 : F) * row c, ?_, ?_⟩
  · refine IsShamir.sum _ fun c _ => ?_
    have := (isShamir_of_horner (F := F) (n := n) (polyT_spec (a := a) h c m).1).smul (row c)
    simpa [point, mul_comm] using this
  · have h1 : ∀ c, horner (polyT t a g c m) (0 : F) = horner (poly2 t a g c m) (0 : F) :=
      fun c => (poly2_spec h c m).2.1.symm
    simp only [h1]
    refine IsShamir.sum _ fun c _ => ?_
    have := (isShamir_of_horner (F := F) (n := n) (poly2_spec (a := a) h c m).1).smul (row c)
    simpa [point, mul_comm] using this

/-- The generators after buffering. -/
def afterBuffer (t a : Nat) (g : Fin n → ShamirRng n R F) (i : Fin n) : ShamirRng n R F :=
  { g i with
    rngs := rngsAfter t a g i
    rT := (g i).rT ++ (freshPairs t a g).map fun p => (p i).1
    r2T := (g i).r2T ++ (freshPairs t a g).map fun p => (p i).2 }

theorem Buffered.after {t a : Nat} {g : Fin n → ShamirRng n R F} (h : RngCorr t g)
    {buf : List (Fin n → F × F)} (hb : Buffered t g buf) :
    Buffered t (afterBuffer t a g) (buf ++ freshPairs t a g) where
  rT i := by simp [afterBuffer, hb.rT]
  r2T i := by simp [afterBuffer, hb.r2T]
  pairs p hp := by
    rcases List.mem_append.mp hp with hp | hp
    · exact hb.pairs p hp
    · exact freshPairs_isPair h p hp

theorem RngCorr.after {t a : Nat} {g : Fin n → ShamirRng n R F} (h : RngCorr t g) :
    RngCorr t (afterBuffer t a g) where
  id := h.id
  thr := h.thr
  bound := h.bound
  live := h.live
  field := h.field
  interpT := h.interpT
  interp2T := h.interp2T
  matrix := h.matrix
  sync := S₃_sync _ a _ (S₃_sync _ a _ h.sync)
  pairs := by
    obtain ⟨buf, hb⟩ := h.pairs
    exact ⟨_, hb.after h⟩

theorem spec_bufferTriples [Codec M (List F)] {t a : Nat} {g : Fin n → ShamirRng n R F}
    (h : RngCorr t g) (st : Fin n → S) :
    Spec (M := M) (fun i => (g i).bufferTriples a) st (fun r st' => r = afterBuffer t a g ∧ st' = st) := by
  unfold ShamirRng.bufferTriples
  refine Spec.bind (spec_randomDoubleShare h st) ?_
  rintro v st' ⟨rfl, rfl⟩
  refine Spec.pure ⟨?_, rfl⟩
  funext i
  simp only [afterBuffer, freshPairs, List.map_flatMap, List.flatMap_map, h.matrix, matmul_eq,
    List.map_map]
  rfl

/-! ## Handing out -/

theorem spec_set {st st' : Fin n → S} {Q : (Fin n → Unit) → (Fin n → S) → Prop}
    (h : Q (fun _ => ()) st') : Spec (M := M) (E := Err) (fun i => MPC.set (st' i)) st Q := by
  have := Spec.modifyGet (M := M) (E := Err) (st := st) (f := fun i (_ : S) => ((), st' i)) (Q := Q) h
  exact this

/-- The pair handed out next and what remains. -/
theorem ShCorr.withRng {t : Nat} {st : Fin n → ShamirState n R F} (h : ShCorr t st)
    {g : Fin n → ShamirRng n R F} (hg : RngCorr t g) : ShCorr t (fun i => { st i with rng := g i }) :=
  ⟨hg, h.lagT, h.lag2T, h.mulLag, h.zeros, h.gen⟩

theorem RngCorr.withBuf {t : Nat} {g : Fin n → ShamirRng n R F} (h : RngCorr t g)
    {buf : List (Fin n → F × F)} (hp : ∀ p ∈ buf, IsPair t p) :
    RngCorr t (fun i => { g i with rT := buf.map fun p => (p i).1
                                   r2T := buf.map fun p => (p i).2 }) :=
  ⟨h.id, h.thr, h.bound, h.live, h.field, h.interpT, h.interp2T, h.matrix, h.sync,
    ⟨buf, fun _ => rfl, fun _ => rfl, hp⟩⟩

/-- The state with the given buffers. -/
def setBuf (st : Fin n → ShamirState n R F) (buf : List (Fin n → F × F)) (i : Fin n) :
    ShamirState n R F :=
  { st i with rng := { (st i).rng with rT := buf.map fun p => (p i).1
                                       r2T := buf.map fun p => (p i).2 } }

theorem ShCorr.setBuf {t : Nat} {st : Fin n → ShamirState n R F} (h : ShCorr t st)
    {buf : List (Fin n → F × F)} (hp : ∀ p ∈ buf, IsPair t p) : ShCorr t (setBuf st buf) :=
  h.withRng (h.rng.withBuf hp)

theorem Buffered.nonempty_n {t : Nat} {g : Fin n → ShamirRng n R F} (h : RngCorr t g) : 0 < n := by
  have := h.live; omega

/-- The state after a refill. -/
def refilled (t : Nat) (st : Fin n → ShamirState n R F) (i : Fin n) : ShamirState n R F :=
  { st i with
    rng := afterBuffer t (st i).generationAmount (fun i => (st i).rng) i
    generationAmount := (st i).generationAmount * 2 }

theorem ShCorr.refilled {t : Nat} {st : Fin n → ShamirState n R F} (h : ShCorr t st) :
    ShCorr t (refilled t st) := by
  obtain ⟨k, hk, hg⟩ := h.gen
  refine ⟨?_, h.lagT, h.lag2T, h.mulLag, h.zeros, ⟨k * 2, by omega, fun i => by simp [Shamir.refilled, hg]⟩⟩
  have : RngCorr t (afterBuffer t k (fun i => (st i).rng)) := h.rng.after
  simpa [Shamir.refilled, hg] using this

theorem spec_getPair [Codec M (List F)] {t : Nat} {st : Fin n → ShamirState n R F} (h : ShCorr t st)
    {buf : List (Fin n → F × F)} (hb : Buffered t (fun i => (st i).rng) buf) :
    Spec (M := M) (fun _ => getPair) st (fun r st' =>
      (∃ rest, buf = rest ++ [r] ∧ st' = setBuf st rest) ∨
      (buf = [] ∧ ∃ rest, ∃ k, (∀ i, (st i).generationAmount = k) ∧
        freshPairs t k (fun i => (st i).rng) = rest ++ [r] ∧ st' = setBuf (refilled t st) rest)) := by
  have pop : ∀ (st : Fin n → ShamirState n R F) (rest : List (Fin n → F × F)) (p : Fin n → F × F)
      (Q : (Fin n → F × F) → (Fin n → ShamirState n R F) → Prop),
      Buffered t (fun i => (st i).rng) (rest ++ [p]) → Q p (setBuf st rest) →
      Spec (M := M) (fun _ => do
        let s ← MPC.get
        match s.rng.rT.getLast?, s.rng.r2T.getLast? with
        | some a, some b =>
          MPC.set { s with rng := { s.rng with rT := s.rng.rT.dropLast, r2T := s.rng.r2T.dropLast } }
          pure (a, b)
        | _, _ => MPC.panicWith "called `Option::unwrap()` on a `None` value") st Q := by
    intro st rest p Q hb hQ
    refine spec_get_bind ?_
    simp only [hb.rT, hb.r2T, List.map_append, List.map_cons, List.map_nil, List.getLast?_append,
      List.getLast?_singleton, Option.some_or, List.dropLast_concat]
    refine Spec.bind (spec_set (Q := fun _ st' => st' = setBuf st rest) rfl) ?_
    rintro _ _ rfl
    exact Spec.pure hQ
  unfold getPair
  refine spec_get_bind ?_
  rcases List.eq_nil_or_concat buf with rfl | ⟨rest, p, rfl⟩
  · obtain ⟨k, hk, hg⟩ := h.gen
    have he : ∀ i, (st i).rng.rT.isEmpty = true := fun i => by rw [hb.rT i]; rfl
    simp only [he, if_true, hg]
    refine Spec.bind (spec_bufferTriples h.rng st) ?_
    rintro g st' ⟨rfl, rfl⟩
    refine Spec.bind (spec_set (Q := fun _ st'' => st'' = refilled t st') ?_) ?_
    · funext i
      simp [Shamir.refilled, hg]
    · rintro _ _ rfl
      obtain ⟨rest, p, hp⟩ : ∃ rest p, freshPairs t k (fun i => (st' i).rng) = rest ++ [p] := by
        rcases List.eq_nil_or_concat (freshPairs t k (fun i => (st' i).rng)) with h0 | ⟨rest, p, h0⟩
        · have := congrArg List.length h0
          simp at this; omega
        · exact ⟨rest, p, by simpa using h0⟩
      refine pop _ rest p _ ?_ (Or.inr ⟨trivial, rest, k, fun _ => rfl, hp, rfl⟩)
      have := hb.after (a := k) h.rng
      rw [List.nil_append, hp] at this
      simpa [refilled, hg] using this
  · have he : ∀ i, (st i).rng.rT.isEmpty = false := fun i => by rw [hb.rT i]; simp
    simp only [he]
    simp only [List.concat_eq_append] at hb ⊢
    exact pop _ rest p _ hb (.inl ⟨rest, rfl, rfl⟩)

/-- What callers of `get_pair` need. -/
theorem spec_getPair' [Codec M (List F)] {t : Nat} {st : Fin n → ShamirState n R F} (h : ShCorr t st) :
    Spec (M := M) (fun _ => getPair) st (fun r st' => IsPair t r ∧ ShCorr t st') := by
  obtain ⟨buf, hb⟩ := h.rng.pairs
  refine (spec_getPair h hb).mono ?_
  rintro r st' (⟨rest, rfl, rfl⟩ | ⟨rfl, rest, k, hk, hf, rfl⟩)
  · exact ⟨hb.pairs r (by simp), h.setBuf fun p hp => hb.pairs p (by simp [hp])⟩
  · have := freshPairs_isPair (a := k) h.rng
    rw [hf] at this
    exact ⟨this r (by simp), h.refilled.setBuf fun p hp => this p (by simp [hp])⟩

theorem spec_rand [Codec M (List F)] {t : Nat} {st : Fin n → ShamirState n R F} (h : ShCorr t st) :
    Spec (M := M) (fun _ => rand) st (fun r st' => (∃ v, IsShamir F t r v) ∧ ShCorr t st') := by
  unfold rand
  refine Spec.bind (spec_getPair' h) ?_
  rintro r st' ⟨⟨v, h1, _⟩, h2⟩
  exact Spec.pure ⟨⟨v, h1⟩, h2⟩

theorem spec_ensurePairs [Codec M (List F)] {t : Nat} {st : Fin n → ShamirState n R F}
    (h : ShCorr t st) {buf : List (Fin n → F × F)} (hb : Buffered t (fun i => (st i).rng) buf)
    (num : Nat) :
    Spec (M := M) (fun _ => ensurePairs num) st (fun _ st' =>
      if num ≤ buf.length then st' = st
      else st' = fun i => { st i with rng := afterBuffer t (divCeil (num - buf.length) (t + 1))
                                        (fun i => (st i).rng) i }) := by
  unfold ensurePairs
  refine spec_get_bind ?_
  simp only [hb.rT, List.length_map, ShamirRng.sizePerBatch, h.rng.matrix, vandermonde_length]
  by_cases hl : num ≤ buf.length
  · simp only [ge_iff_le, hl, if_true]
    exact Spec.pure rfl
  · simp only [ge_iff_le, hl, if_false]
    refine Spec.bind (spec_bufferTriples h.rng st) ?_
    rintro g st' ⟨rfl, rfl⟩
    exact spec_set rfl

end

end Verif.Shamir
