import Verif.Honk.Batching
import Mathlib.Algebra.Field.ZMod
import Mathlib.Tactic.NormNum.Prime
import Mathlib.Tactic.IntervalCases

/-!
# The sumcheck of UltraHonk (C101–C104)
-/

namespace Verif.Honk

open Polynomial

variable {F : Type} [Field F] [DecidableEq F]

/-! ## C101: univariates -/

omit [DecidableEq F] in
/-- Extending the values of a polynomial at `0, …, m - 1` gives its values at `0, …, n - 1`, if the degree is less than `m`. -/
theorem C101_extend (m n : Nat) (hd : Distinct F (max m n)) (f : F[X]) (hf : f.natDegree < m) :
    Univariate.extendFrom n (fun i : Fin m => f.eval ((i : Nat) : F)) = fun i : Fin n => f.eval ((i : Nat) : F) :=
  Univariate.extendFrom_ofPoly n hd f hf

/-- Evaluating a univariate gives the value of the polynomial with these values, for every point except `1, …, n`. -/
theorem C101_evaluate (n : Nat) (hd : Distinct F (n + 1)) (f : F[X]) (hf : f.natDegree < n + 1) (u : F)
    (hu : ∀ i : Nat, 1 ≤ i → i < n + 1 → u ≠ (i : F)) :
    Univariate.evaluate (fun i : Fin (n + 1) => f.eval ((i : Nat) : F)) u = .ok (f.eval u) :=
  Univariate.evaluate_ofPoly hd f hf u hu

/-- At the points `1, …, n` evaluation panics, for every univariate. -/
theorem C101_evaluate_panics (n : Nat) (hd : Distinct F (n + 1)) (a : Univariate F (n + 1)) (i : Nat) (h1 : 1 ≤ i) (hi : i < n + 1) :
    ∃ msg, Univariate.evaluate a (i : F) = .error (.panic msg) := by
  rw [Univariate.evaluate, if_neg (Univariate.Distinct.ne_zero hd hi (by omega)), if_pos ⟨⟨i, hi⟩, by simp⟩]
  exact ⟨_, rfl⟩

/-! ## C102: relations -/

omit [DecidableEq F] in
/-- What the prover adds to an accumulator at a point is the value of the subrelation on the row of that point, times the scaling. -/
theorem C102_prover {n : Nat} (p : Params F) (e : Col → Univariate F n) (scaling : F) (s : Subrel) (i : Fin n) :
    contribution p e scaling s i = (if s = .lookup1 then 1 else scaling) * s.value F p (fun c => e c i) := by
  rw [contribution_eq]
  cases s <;> simp [Subrel.independent]

omit [DecidableEq F] in
/-- So is what the verifier computes from the claimed values. -/
theorem C102_verifier (p : Params F) (e : Col → F) (scaling : F) (s : Subrel) :
    evaluation p e scaling s = (if s = .lookup1 then 1 else scaling) * s.value F p e := by
  rw [evaluation_eq]
  cases s <;> simp [Subrel.independent]

omit [DecidableEq F] in
/-- Between two rows a subrelation is a polynomial that is determined by the evaluations that the prover keeps. -/
theorem C102_degree (p : Params F) (a b : Col → F) (s : Subrel) :
    ∃ f : F[X], f.natDegree < s.len ∧ ∀ t, f.eval t = s.value F p (fun c => a c + (b c - a c) * t) := by
  refine ⟨s.value F p.const (linePoly a b), lt_of_le_of_lt (value_natDegree p a b s) (by have := s.len_pos; omega), fun t => ?_⟩
  rw [value_eval]
  simp only [linePoly_eval]

/-! ## C103: the prover -/

omit [DecidableEq F] in
theorem partialRow_eq (table : Col → Nat → F) (us : List F) (l : Nat) :
    partialRow table us l = foldAll us (fun l c => table c l) l := by
  funext c
  rw [foldAll_eq, partialRow]

/-- The prover never fails, sends one univariate per round, and claims the values of the multilinear extensions of the columns at the
challenges. -/
theorem C103_evaluations (hd8 : Distinct F 8) (p : Params F) (α β : F) (ch : List (Univariate F 8) → F) (d D : Nat) (hd : 2 ≤ d) (hD : d ≤ D)
    (table : Col → Nat → F) :
    ∃ proof, sumcheckProve p (alphaPowers α) (gateChallenges β D) ch (2 ^ d) D (columns (2 ^ d) table) = .ok proof ∧
      proof.univariates.length = D ∧
      ∀ c, proof.evaluations c = extension (pad (2 ^ d) (table c)) (challenges ch proof.univariates) := by
  obtain ⟨proof, h1, h2, h3, -⟩ := sumcheckProve_ok (p := p) (ch := ch) hd8 (alphaPowers_length α) (gateChallenges_length β D).ge hd hD table
  exact ⟨proof, h1, h2, h3⟩

/-- If the table satisfies the circuit, the verifier accepts what the prover sends, provided that no challenge is one of `1, …, 7` and
that the prover has lost nothing by leaving out permutations and lookups. -/
theorem C103_complete (hd8 : Distinct F 8) (p : Params F) (α β : F) (ch : List (Univariate F 8) → F) (d D : Nat) (hd : 2 ≤ d) (hD : d ≤ D)
    (table : Col → Nat → F) (hs : Satisfied p (2 ^ d) table) (proof : SumcheckProof F 8)
    (hp : sumcheckProve p (alphaPowers α) (gateChallenges β D) ch (2 ^ d) D (columns (2 ^ d) table) = .ok proof)
    (hc : ∀ u ∈ challenges ch proof.univariates, ∀ i : Nat, 1 ≤ i → i < 8 → u ≠ (i : F))
    (hskip : ∀ j < D, ∀ l < 2 ^ (D - j - 1),
      let row := partialRow (fun c => pad (2 ^ d) (table c)) ((challenges ch proof.univariates).take j)
      SkipsNothing p (row (2 * l)) (row (2 * l + 1))) :
    sumcheckVerify p (alphaPowers α) (gateChallenges β D) ch D proof = .ok true := by
  obtain ⟨proof', h1, h2, h3, h4⟩ := sumcheckProve_ok (p := p) (ch := ch) hd8 (alphaPowers_length α) (gateChallenges_length β D).ge hd hD table
  rw [hp] at h1
  cases h1
  refine verify_complete p _ _ (fun l c => pad (2 ^ d) (table c) l) D hd8 (alphaPowers_length α) (gateChallenges_length β D).ge ch proof h2
    (fun c => by rw [foldAll_zero]; exact h3 c) (fun j hj => h4 j hj fun l hl => ?_) hc ?_
  · have := hskip j hj l hl
    simp only [partialRow_eq] at this
    exact this
  · rw [sumAt]
    have e : sepValue (gateChallenges β D) [] = 1 := by cases gateChallenges β D <;> rfl
    simp only [List.length_nil, Nat.sub_zero, List.drop_zero, e, foldAll_nil]
    exact total_zero p d D hD table hs _ _

omit [DecidableEq F] in
/-- Nothing is lost if the rows of the table are tidy and the challenges of the earlier rounds do not cancel. -/
theorem C103_tidy (p : Params F) (table : Col → Nat → F) (us : List F) (ht : ∀ i, Tidy (fun c => table c i))
    (hn : NoCancellation table us) (l : Nat) :
    SkipsNothing p (partialRow table us (2 * l)) (partialRow table us (2 * l + 1)) := by
  have eqv : ∀ k c c', (∀ i < 2 ^ us.length, table c (i + 2 ^ us.length * k) = table c' (i + 2 ^ us.length * k)) →
      partialRow table us k c = partialRow table us k c' := by
    intro k c c' h
    simp only [partialRow, extension]
    exact Finset.sum_congr rfl fun i hi => by rw [h i (Finset.mem_range.1 hi)]
  have zero : ∀ k c, (∀ i < 2 ^ us.length, table c (i + 2 ^ us.length * k) = 0) → partialRow table us k c = 0 := by
    intro k c h
    simp only [partialRow, extension]
    exact Finset.sum_eq_zero fun i hi => by rw [h i (Finset.mem_range.1 hi), zero_mul]
  have perm : ∀ k, partialRow table us k .zPerm = partialRow table us k .zPermShift →
      partialRow table us k .sigma1 = partialRow table us k .id1 ∧ partialRow table us k .sigma2 = partialRow table us k .id2 ∧
      partialRow table us k .sigma3 = partialRow table us k .id3 ∧ partialRow table us k .sigma4 = partialRow table us k .id4 ∧
      partialRow table us k .lagrangeFirst = 0 ∧ partialRow table us k .lagrangeLast = 0 := by
    intro k hk
    have h := fun i hi => (ht _).perm (hn.perm k hk i hi)
    exact ⟨eqv _ _ _ fun i hi => (h i hi).1, eqv _ _ _ fun i hi => (h i hi).2.1, eqv _ _ _ fun i hi => (h i hi).2.2.1,
      eqv _ _ _ fun i hi => (h i hi).2.2.2.1, zero _ _ fun i hi => (h i hi).2.2.2.2.1, zero _ _ fun i hi => (h i hi).2.2.2.2.2⟩
  have lookup : ∀ k, partialRow table us k .qLookup = 0 → partialRow table us k .lookupReadCounts = 0 →
      partialRow table us k .lookupReadTags = 0 ∧ partialRow table us k .lookupInverses = 0 := by
    intro k hq hc
    have h := fun i hi => (ht _).lookup (hn.lookup k .qLookup (by simp) hq i hi) (hn.lookup k .lookupReadCounts (by simp) hc i hi)
    exact ⟨zero _ _ fun i hi => (h i hi).1, zero _ _ fun i hi => (h i hi).2⟩
  constructor
  · intro ha hb t s hs
    obtain ⟨a1, a2, a3, a4, a5, a6⟩ := perm _ ha
    obtain ⟨b1, b2, b3, b4, b5, b6⟩ := perm _ hb
    simp only [List.mem_cons, List.not_mem_nil, or_false] at hs
    rcases hs with rfl | rfl
    · simp [Subrel.value, ha, hb, a1, a2, a3, a4, a5, a6, b1, b2, b3, b4, b5, b6]
    · simp [Subrel.value, a6, b6]
  · intro ha hb hca hcb t s hs
    obtain ⟨a1, a2⟩ := lookup _ ha hca
    obtain ⟨b1, b2⟩ := lookup _ hb hcb
    simp only [List.mem_cons, List.not_mem_nil, or_false] at hs
    rcases hs with rfl | rfl | rfl
    · simp [Subrel.value, ha, hb, a1, a2, b1, b2]
    · simp [Subrel.value, ha, hb, hca, hcb]
    · simp [Subrel.value, a1, b1]

/-! ## C104: the verifier -/

/-- If the table does not satisfy the circuit and the claimed values are those of the table, the verifier accepts only with an
exceptional challenge: `α` among 27, `β` among `2 ^ d - 1`, or the challenge of a round among 7 that are fixed before it is drawn. -/
theorem C104_sound (hd8 : Distinct F 8) (p : Params F) (d D : Nat) (hD : d ≤ D) (table : Col → Nat → F)
    (hs : ¬ Satisfied p (2 ^ d) table) :
    ∃ badα : Finset F, badα.card ≤ 27 ∧ ∀ α ∉ badα,
      ∃ badβ : Finset F, badβ.card ≤ 2 ^ d - 1 ∧ ∀ β ∉ badβ,
        ∃ bad : List F → Univariate F 8 → Finset F, (∀ us g, (bad us g).card ≤ 7) ∧
          ∀ (ch : List (Univariate F 8) → F) (proof : SumcheckProof F 8),
            sumcheckVerify p (alphaPowers α) (gateChallenges β D) ch D proof = .ok true →
            (∀ c, proof.evaluations c = extension (pad (2 ^ d) (table c)) ((challenges ch proof.univariates).take D)) →
            ∃ j < D, (challenges ch proof.univariates).getD j 0
              ∈ bad ((challenges ch proof.univariates).take j) (proof.univariates.getD j 0) := by
  obtain ⟨badα, hα, h⟩ := total_ne_zero p d table hs
  refine ⟨badα, hα, fun α ha => ?_⟩
  obtain ⟨badβ, hβ, h⟩ := h α ha
  refine ⟨badβ, hβ, fun β hb => ?_⟩
  have hne := h β hb D hD
  refine ⟨badRound p (alphaPowers α) (gateChallenges β D) (fun l c => pad (2 ^ d) (table c) l) D,
    fun us g => badRound_card _ _ _ _ _ hd8 _ _, fun ch proof hv he => ?_⟩
  rcases (verify_sound p _ _ (fun l c => pad (2 ^ d) (table c) l) D hd8 (alphaPowers_length α) (gateChallenges_length β D).ge ch proof hv).2
    (fun c => by rw [foldAll_zero]; exact he c) with h0 | h0
  · exfalso
    apply hne
    rw [sumAt] at h0
    have e : sepValue (gateChallenges β D) [] = 1 := by cases gateChallenges β D <;> rfl
    simpa only [List.length_nil, Nat.sub_zero, List.drop_zero, e, foldAll_nil] using h0
  · exact h0

/-! ## Concrete cases -/

namespace Demo

instance honkPrime97 : Fact (Nat.Prime 97) := ⟨by norm_num⟩

/-- The field of the examples. -/
abbrev H97 := ZMod 97

theorem distinct97 (k : Nat) (hk : k ≤ 97) : Distinct H97 k := by
  intro i hi j hj h
  have := (ZMod.natCast_eq_natCast_iff' i j 97).1 h
  rwa [Nat.mod_eq_of_lt (by omega), Nat.mod_eq_of_lt (by omega)] at this

/-- A cubic is extended from four values to eight. -/
example : Univariate.extendFrom 8 (fun i : Fin 4 => (X ^ 3 + 2 : H97[X]).eval ((i : Nat) : H97))
    = fun i : Fin 8 => (X ^ 3 + 2 : H97[X]).eval ((i : Nat) : H97) :=
  C101_extend 4 8 (distinct97 8 (by omega)) _ (by
    refine lt_of_le_of_lt (b := 3) ?_ (by omega)
    compute_degree)

example : Univariate.evaluate (fun i : Fin 8 => (X ^ 3 + 2 : H97[X]).eval ((i : Nat) : H97)) 50 = .ok ((X ^ 3 + 2 : H97[X]).eval 50) :=
  C101_evaluate 7 (distinct97 8 (by omega)) _ (by
    refine lt_of_le_of_lt (b := 3) ?_ (by omega)
    compute_degree) 50 (by
    intro i h1 h2
    interval_cases i <;> decide)

example : ∃ msg, Univariate.evaluate (fun i : Fin 8 => ((i : Nat) : H97)) ((5 : Nat) : H97) = .error (.panic msg) :=
  C101_evaluate_panics 7 (distinct97 8 (by omega)) _ 5 (by omega) (by omega)

/-- The parameters of the examples. -/
def honkParams97 : Params H97 := ⟨5, 6, 8, 2, 3, 1, 17, 1, 2, 3, 4⟩

/-- The witness of the example: the product `3 · 5 = 15` in the row 1 and a lookup of `(7, 8, 9)` in the row 2. -/
def wires97 : Col → Nat → H97
  | .wl, 1 => 3 | .wr, 1 => 5 | .wo, 1 => 15
  | .wl, 2 => 7 | .wr, 2 => 8 | .wo, 2 => 9
  | _, _ => 0

/-- A table of four rows. -/
def table97 : Col → Nat → H97
  | .qArith, 1 => 1 | .qm, 1 => 1 | .qo, 1 => -1
  | .qLookup, 2 => 1
  | .table1, 3 => 7 | .table2, 3 => 8 | .table3, 3 => 9
  | .lookupReadCounts, 3 => 1 | .lookupReadTags, 3 => 1
  | .lookupInverses, 2 => 12 | .lookupInverses, 3 => 12
  | .id1, i => i | .id2, i => 10 + i | .id3, i => 20 + i | .id4, i => 30 + i
  | .sigma1, i => i | .sigma2, i => 10 + i | .sigma3, i => 20 + i | .sigma4, i => 30 + i
  | .lagrangeFirst, 0 => 1 | .lagrangeLast, 3 => 1
  | .zPerm, 1 => 1 | .zPerm, 2 => 1 | .zPerm, 3 => 1
  | .zPermShift, 0 => 1 | .zPermShift, 1 => 1 | .zPermShift, 2 => 1
  | .wlShift, i => wires97 .wl (i + 1) | .wrShift, i => wires97 .wr (i + 1)
  | .woShift, i => wires97 .wo (i + 1) | .w4Shift, i => wires97 .w4 (i + 1)
  | .wl, i => wires97 .wl i | .wr, i => wires97 .wr i | .wo, i => wires97 .wo i | .w4, i => wires97 .w4 i
  | _, _ => 0

/-- The table satisfies the circuit. -/
theorem table97_satisfied : Satisfied honkParams97 (2 ^ 2) table97 where
  rows s hs i hi := by
    have hi' : i < 4 := hi
    interval_cases i <;> cases s <;> first | exact absurd rfl hs | decide +kernel
  lookups := by decide +kernel

/-- The two sides of the gates on a row. -/
example : evaluation honkParams97 (fun c => table97 c 1) 9 .arith0 = 0 := by
  rw [C102_verifier, table97_satisfied.rows _ (by decide) 1 (by omega), mul_zero]

example : contribution honkParams97 (fun c => (fun i => table97 c i : Univariate H97 4)) 9 .arith0 1 = 0 := by
  rw [C102_prover]
  exact mul_eq_zero_of_right _ (table97_satisfied.rows _ (by decide) 1 (by omega))

/-- The subrelation is not zero between the rows. -/
example : Subrel.arith0.value H97 honkParams97 (fun c => table97 c 0 + (table97 c 1 - table97 c 0) * 3) ≠ 0 := by decide +kernel

theorem table97_tidy (i : Nat) : Tidy (fun c => pad 4 (table97 c) i) := by
  by_cases hi : i < 4
  · interval_cases i <;> constructor <;> decide +kernel
  · constructor <;> simp [pad, hi]

theorem table97_noCancellation : ∀ j < 3, NoCancellation (fun c => pad 4 (table97 c)) (List.replicate j (10 : H97)) := by
  intro j hj
  constructor
  · intro l
    by_cases hl : l < 4
    · interval_cases j <;> interval_cases l <;> decide +kernel
    · intro _ i _
      have : ¬ i + 2 ^ (List.replicate j (10 : H97)).length * l < 4 := by
        have := Nat.le_mul_of_pos_left l (Nat.two_pow_pos (List.replicate j (10 : H97)).length)
        omega
      simp only [pad, if_neg this]
  · intro l
    by_cases hl : l < 4
    · interval_cases j <;> interval_cases l <;> decide +kernel
    · intro c _ _ i _
      have : ¬ i + 2 ^ (List.replicate j (10 : H97)).length * l < 4 := by
        have := Nat.le_mul_of_pos_left l (Nat.two_pow_pos (List.replicate j (10 : H97)).length)
        omega
      simp only [pad, if_neg this]

/-- The verifier accepts the proof for the table, with two rounds for the table and one beyond. -/
example : ∃ proof, sumcheckProve honkParams97 (alphaPowers 11) (gateChallenges 12 3) (fun _ => 10) (2 ^ 2) 3 (columns (2 ^ 2) table97) = .ok proof ∧
    sumcheckVerify honkParams97 (alphaPowers 11) (gateChallenges 12 3) (fun _ => 10) 3 proof = .ok true := by
  obtain ⟨proof, h1, h2, -⟩ := C103_evaluations (distinct97 8 (by omega)) honkParams97 11 12 (fun _ => 10) 2 3 (by omega) (by omega) table97
  have hch : challenges (fun _ => (10 : H97)) proof.univariates = List.replicate 3 10 := by
    rw [challenges, h2]; rfl
  refine ⟨proof, h1, C103_complete (distinct97 8 (by omega)) honkParams97 11 12 (fun _ => 10) 2 3 (by omega) (by omega) table97
    table97_satisfied proof h1 ?_ ?_⟩
  · intro u hu i h1 h2
    rw [hch] at hu
    rw [List.eq_of_mem_replicate hu]
    interval_cases i <;> decide
  · intro j hj l _
    rw [hch]
    simp only [List.take_replicate, Nat.min_eq_left (show j ≤ 3 by omega)]
    exact C103_tidy _ _ _ table97_tidy (table97_noCancellation j hj) l

/-- A table of eight rows that is not tidy: the two equal wires of the row 2 are connected to each other and to nothing else. -/
def untidy97 : Col → Nat → H97
  | .wl, 2 => 4 | .wr, 2 => 4
  | .wlShift, 1 => 4 | .wrShift, 1 => 4
  | .id1, i => i | .id2, i => 10 + i | .id3, i => 20 + i | .id4, i => 30 + i
  | .sigma1, 2 => 12 | .sigma2, 2 => 2
  | .sigma1, i => i | .sigma2, i => 10 + i | .sigma3, i => 20 + i | .sigma4, i => 30 + i
  | .lagrangeFirst, 0 => 1 | .lagrangeLast, 7 => 1
  | .zPerm, 0 => 0 | .zPerm, _ => 1
  | .zPermShift, 7 => 0 | .zPermShift, _ => 1
  | _, _ => 0

/-- The table satisfies the circuit. -/
theorem untidy97_satisfied : Satisfied honkParams97 (2 ^ 3) untidy97 where
  rows s hs i hi := by
    have hi' : i < 8 := hi
    interval_cases i <;> cases s <;> first | exact absurd rfl hs | decide +kernel
  lookups := by decide +kernel

/-- What the verifier says about the proof for the table. -/
def untidyRun97 : Option Bool :=
  match sumcheckProve honkParams97 (alphaPowers 11) (gateChallenges 12 3) (fun _ => 10) (2 ^ 3) 3 (columns (2 ^ 3) untidy97) with
  | .error _ => none
  | .ok proof =>
    match sumcheckVerify honkParams97 (alphaPowers 11) (gateChallenges 12 3) (fun _ => 10) 3 proof with
    | .error _ => none
    | .ok b => some b

/-- Without the condition on what is left out, the honest proof for a satisfied table can be rejected. -/
theorem C103_rejected : ∃ (table : Col → Nat → H97) (proof : SumcheckProof H97 8),
    Satisfied honkParams97 (2 ^ 3) table ∧
    sumcheckProve honkParams97 (alphaPowers 11) (gateChallenges 12 3) (fun _ => 10) (2 ^ 3) 3 (columns (2 ^ 3) table) = .ok proof ∧
    (∀ u ∈ challenges (fun _ => (10 : H97)) proof.univariates, u = 10) ∧
    sumcheckVerify honkParams97 (alphaPowers 11) (gateChallenges 12 3) (fun _ => 10) 3 proof = .ok false := by
  have h : untidyRun97 = some false := by decide +kernel
  rw [untidyRun97] at h
  split at h
  · cases h
  · rename_i proof hp
    refine ⟨untidy97, proof, untidy97_satisfied, hp, fun u hu => ?_, ?_⟩
    · obtain ⟨_, _, rfl⟩ := List.mem_map.1 hu
      rfl
    · split at h
      · cases h
      · rename_i b hb
        rw [hb, Option.some.inj h]

/-- A table with a wrong product. -/
def wrong97 : Col → Nat → H97
  | .wo, 1 => 16
  | c, i => table97 c i

theorem wrong97_unsatisfied : ¬ Satisfied honkParams97 (2 ^ 2) wrong97 := by
  intro h
  exact absurd (h.rows .arith0 (by decide) 1 (by omega)) (by decide +kernel)

/-- For most challenges the verifier does not accept the wrong table unless a round is lucky. -/
example : ∃ badα : Finset H97, badα.card ≤ 27 ∧ ∀ α ∉ badα, ∃ badβ : Finset H97, badβ.card ≤ 3 ∧ ∀ β ∉ badβ,
    ∃ bad : List H97 → Univariate H97 8 → Finset H97, (∀ us g, (bad us g).card ≤ 7) ∧
      ∀ (ch : List (Univariate H97 8) → H97) (proof : SumcheckProof H97 8),
        sumcheckVerify honkParams97 (alphaPowers α) (gateChallenges β 3) ch 3 proof = .ok true →
        (∀ c, proof.evaluations c = extension (pad 4 (wrong97 c)) ((challenges ch proof.univariates).take 3)) →
        ∃ j < 3, (challenges ch proof.univariates).getD j 0
          ∈ bad ((challenges ch proof.univariates).take j) (proof.univariates.getD j 0) :=
  C104_sound (distinct97 8 (by omega)) honkParams97 2 3 (by omega) wrong97 wrong97_unsatisfied

end Demo

end Verif.Honk
