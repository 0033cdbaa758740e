import Verif.Honk.VerifierLemmas

/-! # What a sum of zero says about the table -/

namespace Verif.Honk

open Polynomial

variable {F : Type} [Field F]

/-- The position of a subrelation. -/
def Subrel.pos : Subrel → Nat
  | .arith0 => 0 | .arith1 => 1 | .perm0 => 2 | .perm1 => 3 | .lookup0 => 4 | .lookup1 => 5 | .lookup2 => 6
  | .delta0 => 7 | .delta1 => 8 | .delta2 => 9 | .delta3 => 10 | .elliptic0 => 11 | .elliptic1 => 12
  | .memory0 => 13 | .memory1 => 14 | .memory2 => 15 | .memory3 => 16 | .memory4 => 17 | .memory5 => 18 | .nnf0 => 19
  | .external0 => 20 | .external1 => 21 | .external2 => 22 | .external3 => 23
  | .internal0 => 24 | .internal1 => 25 | .internal2 => 26 | .internal3 => 27

theorem alphaPowers_length (α : F) : (alphaPowers α).length = 27 := by simp [alphaPowers]

theorem gateChallenges_length (β : F) (D : Nat) : (gateChallenges β D).length = D := by simp [gateChallenges]

theorem scaleFactor_powers (α : F) (s : Subrel) : scaleFactor 1 (alphaPowers α) s = α ^ s.pos := by
  cases s <;> simp [scaleFactor, alphaPowers, List.iterate, Subrel.pos] <;> ring

theorem weight_powers (β : F) (D l : Nat) (hl : l < 2 ^ D) : weight (gateChallenges β D) l = β ^ l := by
  induction D generalizing β l with
  | zero => have : l = 0 := by simpa using hl
            subst this; simp [weight_zero]
  | succ D ih =>
    have e : gateChallenges β (D + 1) = β :: gateChallenges (β * β) D := rfl
    rw [e, weight, ih _ _ (by rw [pow_succ] at hl; omega)]
    conv_rhs => rw [show l = 2 * (l / 2) + l % 2 from by omega, pow_add, pow_mul]
    rcases Nat.mod_two_eq_zero_or_one l with h | h <;> simp [h] <;> ring

/-- The coefficients of a row. -/
def coefficient (p : Params F) (n : Nat) (table : Col → Nat → F) (l : Nat) (s : Subrel) : F :=
  if s.independent then s.value F p (fun c => table c l)
  else if l = 0 then ∑ i ∈ Finset.range n, s.value F p (fun c => table c i) else 0

/-- A row as a polynomial in the challenge `α`. -/
noncomputable def alphaPoly (p : Params F) (n : Nat) (table : Col → Nat → F) (l : Nat) : F[X] :=
  (Subrel.all.map fun s => C (coefficient p n table l s) * X ^ s.pos).sum

theorem alphaPoly_coeff (p : Params F) (n : Nat) (table : Col → Nat → F) (l : Nat) (s : Subrel) :
    (alphaPoly p n table l).coeff s.pos = coefficient p n table l s := by
  rw [alphaPoly]
  generalize coefficient p n table l = g
  cases s <;> simp [Subrel.all, Subrel.pos, coeff_X, coeff_C, coeff_C_mul, coeff_X_pow]

theorem alphaPoly_natDegree (p : Params F) (n : Nat) (table : Col → Nat → F) (l : Nat) : (alphaPoly p n table l).natDegree ≤ 27 := by
  refine natDegree_list_sum _ _ fun q hq => ?_
  obtain ⟨s, -, rfl⟩ := List.mem_map.1 hq
  refine (natDegree_C_mul_X_pow_le _ _).trans ?_
  cases s <;> decide

theorem alphaPoly_eval (p : Params F) (n : Nat) (table : Col → Nat → F) (l : Nat) (α : F) :
    (alphaPoly p n table l).eval α = (Subrel.all.map fun s => coefficient p n table l s * α ^ s.pos).sum := by
  rw [alphaPoly, list_eval_sum, List.map_map]
  congr 1
  refine List.map_congr_left fun s _ => ?_
  simp

theorem total_eq (p : Params F) (d D : Nat) (hd : d ≤ D) (table : Col → Nat → F) (α β : F) :
    total (scaleFactor 1 (alphaPowers α)) p D (gateChallenges β D) 1 (fun l c => pad (2 ^ d) (table c) l)
      = ∑ l ∈ Finset.range (2 ^ d), (alphaPoly p (2 ^ d) table l).eval α * β ^ l := by
  have hle : 2 ^ d ≤ 2 ^ D := Nat.pow_le_pow_right (by omega) hd
  rw [total, ← Finset.sum_subset (s₁ := Finset.range (2 ^ d)) (by intro x; simp; omega)]
  · simp only [alphaPoly_eval, batched, scaleFactor_powers]
    have hsum : ∀ (ls : List Subrel) (G : Nat → Subrel → F), ∑ k ∈ Finset.range (2 ^ d), (ls.map fun s => G k s).sum
        = (ls.map fun s => ∑ k ∈ Finset.range (2 ^ d), G k s).sum := by
      intro ls G
      induction ls with
      | nil => simp
      | cons a ls ih => simp [Finset.sum_add_distrib, ih]
    have hmul : ∀ (ls : List Subrel) (G : Subrel → F) (x : F), (ls.map G).sum * x = (ls.map fun s => G s * x).sum := by
      intro ls G x
      induction ls with
      | nil => simp
      | cons a ls ih => simp [add_mul, ih]
    simp only [hmul]
    rw [hsum, hsum]
    congr 1
    refine List.map_congr_left fun s _ => ?_
    have hrow : ∀ l ∈ Finset.range (2 ^ d), (fun c => pad (2 ^ d) (table c) l) = fun c => table c l := by
      intro l hl
      funext c
      exact if_pos (Finset.mem_range.1 hl)
    by_cases hs : s.independent = true
    · refine Finset.sum_congr rfl fun l hl => ?_
      rw [hrow l hl, if_pos hs, coefficient, if_pos hs, weight_powers _ _ _ (lt_of_lt_of_le (Finset.mem_range.1 hl) hle)]
      ring
    · simp only [if_neg hs, coefficient, one_mul]
      rw [Finset.sum_congr rfl fun l hl => by rw [hrow l hl]]
      rw [← Finset.sum_subset (s₁ := {0}) (s₂ := Finset.range (2 ^ d)) (f := fun l => _ * _ * β ^ l)
        (by intro x hx; simp at hx; subst hx; simp)]
      · simp [Finset.mul_sum, mul_comm]
      · intro l _ hl
        simp at hl
        simp [hl]
  · intro l _ hl
    have hz : (fun c => pad (2 ^ d) (table c) l) = fun _ => (0 : F) := by
      funext c
      exact if_neg (by simpa using hl)
    rw [hz, batched_zero]

variable [DecidableEq F]

/-- For an unsatisfied table, few challenges `α` and few challenges `β` give a sum of zero. -/
theorem total_ne_zero (p : Params F) (d : Nat) (table : Col → Nat → F) (hns : ¬ Satisfied p (2 ^ d) table) :
    ∃ badα : Finset F, badα.card ≤ 27 ∧ ∀ α ∉ badα, ∃ badβ : Finset F, badβ.card ≤ 2 ^ d - 1 ∧ ∀ β ∉ badβ, ∀ D, d ≤ D →
      total (scaleFactor 1 (alphaPowers α)) p D (gateChallenges β D) 1 (fun l c => pad (2 ^ d) (table c) l) ≠ 0 := by
  obtain ⟨l, hl, s, hc⟩ : ∃ l < 2 ^ d, ∃ s, coefficient p (2 ^ d) table l s ≠ 0 := by
    by_contra hcon
    push Not at hcon
    refine hns ⟨fun s hs i hi => ?_, ?_⟩
    · have := hcon i hi s
      rw [coefficient, if_pos (by cases s <;> first | rfl | exact absurd rfl hs)] at this
      exact this
    · have := hcon 0 (by positivity) .lookup1
      rw [coefficient, if_neg (by decide), if_pos rfl] at this
      exact this
  have hA : alphaPoly p (2 ^ d) table l ≠ 0 := by
    intro h
    apply hc
    rw [← alphaPoly_coeff, h, coeff_zero]
  refine ⟨(alphaPoly p (2 ^ d) table l).roots.toFinset,
    (Multiset.toFinset_card_le _).trans ((card_roots' _).trans (alphaPoly_natDegree _ _ _ _)), fun α hα => ?_⟩
  rw [Multiset.mem_toFinset, mem_roots hA, IsRoot.def] at hα
  let Q : F[X] := ∑ l ∈ Finset.range (2 ^ d), C ((alphaPoly p (2 ^ d) table l).eval α) * X ^ l
  have hQc : Q.coeff l = (alphaPoly p (2 ^ d) table l).eval α := by
    simp only [Q, finsetSum_coeff, coeff_C_mul_X_pow]
    rw [Finset.sum_eq_single l]
    · simp
    · intro b _ hb; simp [hb.symm]
    · intro h; exact absurd (Finset.mem_range.2 hl) h
  have hQ : Q ≠ 0 := by
    intro h
    rw [h, coeff_zero] at hQc
    exact hα hQc.symm
  have hQd : Q.natDegree ≤ 2 ^ d - 1 := natDegree_sum_le_of_forall_le _ _ fun l hl =>
    (natDegree_C_mul_X_pow_le _ _).trans (by have := Finset.mem_range.1 hl; omega)
  refine ⟨Q.roots.toFinset, (Multiset.toFinset_card_le _).trans ((card_roots' _).trans hQd), fun β hβ D hD => ?_⟩
  rw [Multiset.mem_toFinset, mem_roots hQ, IsRoot.def] at hβ
  rw [total_eq p d D hD]
  intro h
  apply hβ
  simp only [Q, eval_finsetSum, eval_mul, eval_C, eval_pow, eval_X]
  exact h

omit [DecidableEq F] in
/-- The sum over a satisfied table is zero. -/
theorem total_zero (p : Params F) (d D : Nat) (hd : d ≤ D) (table : Col → Nat → F) (h : Satisfied p (2 ^ d) table) (alphas betas : List F) :
    total (scaleFactor 1 alphas) p D betas 1 (fun l c => pad (2 ^ d) (table c) l) = 0 := by
  have hle : 2 ^ d ≤ 2 ^ D := Nat.pow_le_pow_right (by omega) hd
  rw [total, ← Finset.sum_subset (s₁ := Finset.range (2 ^ d)) (by intro x; simp; omega)]
  · have hrow : ∀ l ∈ Finset.range (2 ^ d), batched (scaleFactor 1 alphas) p (1 * weight betas l) (fun c => pad (2 ^ d) (table c) l)
        = scaleFactor 1 alphas .lookup1 * Subrel.lookup1.value F p (fun c => table c l) := by
      intro l hl
      have : (fun c => pad (2 ^ d) (table c) l) = fun c => table c l := by
        funext c
        exact if_pos (Finset.mem_range.1 hl)
      rw [this]
      have hv : ∀ s : Subrel, s ≠ .lookup1 → s.value F p (fun c => table c l) = 0 := fun s hs => h.rows s hs l (Finset.mem_range.1 hl)
      simp [batched, Subrel.all, hv, Subrel.independent]
    rw [Finset.sum_congr rfl hrow, ← Finset.mul_sum, h.lookups, mul_zero]
  · intro l _ hl
    have hz : (fun c => pad (2 ^ d) (table c) l) = fun _ => (0 : F) := by
      funext c
      exact if_neg (by simpa using hl)
    rw [hz, batched_zero]

end Verif.Honk
