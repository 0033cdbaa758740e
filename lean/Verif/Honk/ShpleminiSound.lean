import Verif.Honk.ShpleminiVerify
import Verif.Honk.ProverLemmas
import Verif.Honk.BuildLemmas
import Mathlib.Algebra.Polynomial.Expand
import Mathlib.Algebra.Polynomial.Roots
import Mathlib.Algebra.Polynomial.Eval.Degree

/-!
# Lemmas: what an accepted opening proof says
-/

namespace Verif.Honk

open Polynomial

section Exponent

variable {F G H T : Type} [Field F] [DecidableEq F] [AddCommGroup G] [Module F G] [AddCommGroup H] [Module F H] [AddCommGroup T]
  [Module F T] [DecidableEq T]

theorem sum_range'_map (f : Nat → F) (n : Nat) : ((List.range' 1 n).map f).sum = ∑ j ∈ Finset.range n, f (j + 1) := by
  induction n with
  | zero => simp
  | succ n ih =>
    rw [List.range'_concat, List.map_append, List.sum_append, ih, Finset.sum_range_succ]
    simp [add_comm]

/-- The relation of the values that the verifier computes. -/
theorem foldPosValues_steps {v : F} : ∀ {us negs pos : List F} {x : F}, negs.length = us.length →
    foldPosValues v (List.zipWith (fun x y => (x, y)) (List.iterate (fun x => x * x) x us.length) (List.zipWith (fun u n => (u, n)) us negs)) = .ok pos →
    pos.length = us.length ∧ ∀ j < us.length, pos.getD j 0 * (x ^ 2 ^ j * (1 - us.getD j 0) + us.getD j 0) =
      x ^ 2 ^ j * (if j + 1 = us.length then v else pos.getD (j + 1) 0) * 2 - negs.getD j 0 * (x ^ 2 ^ j * (1 - us.getD j 0) - us.getD j 0) := by
  intro us
  induction us with
  | nil =>
    intro negs pos x _ h
    obtain rfl := Except.ok.inj h
    simp
  | cons u us ih =>
    intro negs pos x hl h
    match negs, hl with
    | n :: negs, hl =>
      simp only [List.length_cons, List.iterate, List.zipWith_cons_cons, foldPosValues] at h
      obtain ⟨ps, h1, h⟩ := Draft.bind_ok.1 h
      obtain ⟨hpl, hps⟩ := ih (by simpa using hl) h1
      by_cases hd : x * (1 - u) + u = 0
      · rw [if_pos hd] at h; cases h
      rw [if_neg hd] at h
      obtain rfl := Except.ok.inj h
      refine ⟨by simp [hpl], fun j hj => ?_⟩
      cases j with
      | zero =>
        simp only [pow_zero, pow_one, List.getD_cons_zero, List.getD_cons_succ, List.length_cons]
        rw [inv_mul_cancel_right₀ hd]
        have : ps.headD v = if 0 + 1 = us.length + 1 then v else ps.getD 0 0 := by
          cases ps with
          | nil => rw [if_pos (by rw [← hpl]; rfl)]; rfl
          | cons a ps => rw [if_neg (by rw [← hpl]; simp)]; rfl
        rw [this]
      | succ j =>
        have := hps j (by simpa using hj)
        have sq : (x * x) ^ 2 ^ j = x ^ 2 ^ (j + 1) := by rw [← pow_two, ← pow_mul, ← pow_succ']
        rw [sq] at this
        simpa using this

/-- The scalars of the first polynomial and of the folded ones. -/
def openedScalar (f g r : F) (A : Nat → F) (j : Nat) (b : Bool) : F :=
  if j = 0 then (if b then f - r⁻¹ * g else f + r⁻¹ * g) else A (j - 1)

/-- The verdict in the exponent. -/
theorem verify_exponent {e : G →ₗ[F] H →ₗ[F] T} {gen : G} {g2 : H} (hne : e gen g2 ≠ 0) {τ : F} {ch : PcsChallenges F G} {us : List F}
    {P : Col → F} {evals : Col → F} {A : List F} {negs : List F} {q w : F}
    (h : shpleminiVerify e gen g2 (τ • g2) ch us (fun c => P c • gen) evals ⟨A.map (· • gen), negs, q • gen, w • gen⟩ = .ok true)
    {r ν z : F} (hr : ch.r (A.map (· • gen)) = r) (hν : ch.nu (A.map (· • gen)) negs = ν) (hz : ch.z (A.map (· • gen)) negs (q • gen) = z) :
    us.length ≠ 0 ∧ r ≠ 0 ∧ A.length = us.length - 1 ∧ negs.length = us.length ∧ ∃ pos : List F,
      foldPosValues (wsum ch.rho 1 (Col.unshifted.map evals) + wsum ch.rho (ch.rho ^ Col.unshifted.length)
          ((Col.toBeShifted.zip Col.shifts).map fun p => evals p.2))
        (List.zipWith (fun x y => (x, y)) (List.iterate (fun x => x * x) r us.length) (List.zipWith (fun u n => (u, n)) us negs)) = .ok pos ∧
      q + (z - τ) * w = ∑ j ∈ Finset.range us.length,
        (ν ^ (2 * j) * ((z - r ^ 2 ^ j)⁻¹ * (openedScalar (wsum ch.rho 1 (Col.unshifted.map P))
            (wsum ch.rho (ch.rho ^ Col.unshifted.length) ((Col.toBeShifted.zip Col.shifts).map fun p => P p.1)) r (A.getD · 0) j false - pos.getD j 0)) +
         ν ^ (2 * j + 1) * ((z + r ^ 2 ^ j)⁻¹ * (openedScalar (wsum ch.rho 1 (Col.unshifted.map P))
            (wsum ch.rho (ch.rho ^ Col.unshifted.length) ((Col.toBeShifted.zip Col.shifts).map fun p => P p.1)) r (A.getD · 0) j true - negs.getD j 0))) := by
  rw [shpleminiVerify] at h
  simp only [hr, hν, hz] at h
  by_cases hD : us.length = 0
  · rw [if_pos hD] at h; cases h
  rw [if_neg hD] at h
  by_cases hl : (A.map (· • gen)).length ≠ us.length - 1 ∨ negs.length ≠ us.length
  · rw [if_pos hl] at h; cases h
  rw [if_neg hl] at h
  simp only [List.length_map, not_or, not_not] at hl
  by_cases hr0 : r = 0
  · rw [if_pos hr0] at h; cases h
  rw [if_neg hr0] at h
  obtain ⟨pos, hpos, h⟩ := Draft.bind_ok.1 h
  have hD0 : 0 < us.length := by omega
  refine ⟨hD, hr0, hl.1, hl.2, pos, ?_⟩
  have hsqj : ∀ j < us.length, (squares r us.length).getD j 0 = r ^ 2 ^ j := fun j hj => by
    rw [squares_eq r _ hD0, List.getD, List.getElem?_map, List.getElem?_range hj]
    rfl
  have hsql : (squares r us.length).length = us.length := by rw [squares_eq r _ hD0]; simp
  have hinv : ∀ j < us.length, (invertedDenominators z (squares r us.length)).getD (2 * j) 0 = (z - r ^ 2 ^ j)⁻¹ ∧
      (invertedDenominators z (squares r us.length)).getD (2 * j + 1) 0 = (z + r ^ 2 ^ j)⁻¹ := fun j hj => by
    have := inverted_getD z (squares r us.length) j (by omega)
    rwa [hsqj j hj] at this
  have hνj : ∀ i < 2 * us.length, (List.iterate (· * ν) 1 (2 * us.length)).getD i 0 = ν ^ i := fun i hi => powers_getD ν _ i hi
  obtain ⟨inv, hinve⟩ : ∃ inv, invertedDenominators z (squares r us.length) = inv := ⟨_, rfl⟩
  obtain ⟨νs, hνse⟩ : ∃ νs, List.iterate (· * ν) 1 (2 * us.length) = νs := ⟨_, rfl⟩
  rw [hinve] at hinv
  rw [hνse] at hνj
  simp only [hinve, hνse] at h hpos
  have hi0 := hinv 0 hD0
  simp only [mul_zero, zero_add, pow_zero, pow_one] at hi0
  obtain ⟨un, hun⟩ : ∃ un, inv.getD 0 0 + ν * inv.getD 1 0 = un := ⟨_, rfl⟩
  obtain ⟨sh, hsh⟩ : ∃ sh, r⁻¹ * (inv.getD 0 0 - ν * inv.getD 1 0) = sh := ⟨_, rfl⟩
  simp only [hun, hsh] at h hpos
  obtain ⟨hc1, hc2, hc3⟩ := batchClaims_eq ch.rho un gen Col.unshifted P evals ([((1 : F), q • gen)], 0, 1)
  obtain ⟨stf, hstf⟩ : ∃ stf, batchClaims ch.rho un ([((1 : F), q • gen)], 0, 1) (Col.unshifted.map fun c => (P c • gen, evals c)) = stf := ⟨_, rfl⟩
  rw [hstf] at hc1 hc2 hc3
  obtain ⟨hd1, hd2, -⟩ := batchClaims_eq ch.rho sh gen (Col.toBeShifted.zip Col.shifts) (fun p => P p.1) (fun p => evals p.2) stf
  obtain ⟨stg, hstg⟩ : ∃ stg, batchClaims ch.rho sh stf ((Col.toBeShifted.zip Col.shifts).map fun p => (P p.1 • gen, evals p.2)) = stg := ⟨_, rfl⟩
  rw [hstg] at hd1 hd2
  have hstf' : batchClaims ch.rho un ([((1 : F), q • gen)], 0, 1) ((Col.precomputed ++ Col.witness).map fun c => (P c • gen, evals c)) = stf := hstf
  have hstg' : batchClaims ch.rho sh stf (List.zipWith (fun c s => (P c • gen, evals s)) Col.toBeShifted Col.shifts) = stg := hstg
  simp only [hstf', hstg'] at h hpos
  obtain ⟨f, hf⟩ : ∃ f, wsum ch.rho 1 (Col.unshifted.map P) = f := ⟨_, rfl⟩
  obtain ⟨g, hg⟩ : ∃ g, wsum ch.rho (ch.rho ^ Col.unshifted.length) ((Col.toBeShifted.zip Col.shifts).map fun p => P p.1) = g := ⟨_, rfl⟩
  simp only at hc1 hc2 hc3
  rw [hf] at hc1
  rw [hc3, one_mul] at hd1 hd2
  rw [hg] at hd1
  rw [hc2, zero_add] at hd2
  rw [hf, hg]
  refine ⟨?_, ?_⟩
  · have hsq : squares r us.length = List.iterate (fun x => x * x) r us.length := by rw [squares, max_eq_left (by omega)]
    rw [hsq, hd2] at hpos
    exact hpos
  have hfoldj : ∀ j ∈ List.range' 1 (us.length - 1), (A.map (· • gen)).getD (j - 1) 0 = A.getD (j - 1) 0 • gen := fun j hj => by
    have hj := List.mem_range'_1.mp hj
    rw [List.getD, List.getElem?_map, List.getD, List.getElem?_eq_getElem (by omega)]
    rfl
  obtain ⟨hge1, hge2⟩ := gemini_foldl gen
    (fun j => νs.getD (2 * j + 1) 0 * inv.getD (2 * j + 1) 0 * negs.getD j 0 + νs.getD (2 * j) 0 * inv.getD (2 * j) 0 * pos.getD j 0)
    (fun j => -1 * (νs.getD (2 * j + 1) 0 * inv.getD (2 * j + 1) 0 + νs.getD (2 * j) 0 * inv.getD (2 * j) 0))
    (fun j => A.getD (j - 1) 0) (fun j => (A.map (· • gen)).getD (j - 1) 0) (List.range' 1 (us.length - 1)) hfoldj (0, stg.1)
  obtain ⟨hh, hhe⟩ : ∃ h, batchGemini (A.map (· • gen)) negs pos inv νs (0, stg.1) = h := ⟨_, rfl⟩
  have hgb := hhe
  simp only [batchGemini, hl.2] at hgb
  rw [hgb] at hge1 hge2
  rw [hhe] at h
  have h := of_decide_eq_true (Except.ok.inj h)
  have hp0 : termsSum (hh.2 ++ [(hh.1 + pos.getD 0 0 * inv.getD 0 0 + negs.getD 0 0 * ν * inv.getD 1 0, gen), (z, w • gen)])
      = (q - un * f - sh * g + ((List.range' 1 (us.length - 1)).map fun j => -1 * (νs.getD (2 * j + 1) 0 * inv.getD (2 * j + 1) 0
          + νs.getD (2 * j) 0 * inv.getD (2 * j) 0) * A.getD (j - 1) 0).sum
        + (((List.range' 1 (us.length - 1)).map fun j => νs.getD (2 * j + 1) 0 * inv.getD (2 * j + 1) 0 * negs.getD j 0
          + νs.getD (2 * j) 0 * inv.getD (2 * j) 0 * pos.getD j 0).sum + pos.getD 0 0 * inv.getD 0 0 + negs.getD 0 0 * ν * inv.getD 1 0)
        + z * w) • gen := by
    rw [termsSum_append, hge2, hge1, hd1, hc1]
    simp only [termsSum, List.map_cons, List.map_nil, List.sum_cons, List.sum_nil, add_zero, smul_smul, ← add_smul]
    congr 1
    ring
  rw [show ((hh.2 ++ [(hh.1 + pos.getD 0 0 * inv.getD 0 0 + negs.getD 0 0 * ν * inv.getD 1 0, gen), (z, w • gen)]).map fun t => t.1 • t.2).sum =
    termsSum (hh.2 ++ [(hh.1 + pos.getD 0 0 * inv.getD 0 0 + negs.getD 0 0 * ν * inv.getD 1 0, gen), (z, w • gen)]) from rfl, hp0] at h
  rw [map_smul, LinearMap.smul_apply, map_neg, LinearMap.neg_apply, map_smul, map_smul, LinearMap.smul_apply, smul_smul, ← sub_eq_add_neg,
    ← sub_smul] at h
  have h := (smul_eq_zero.1 h).resolve_right hne
  obtain ⟨m, hm⟩ : ∃ m, us.length = m + 1 := ⟨us.length - 1, by omega⟩
  rw [hm, Nat.add_sub_cancel, sum_range'_map, sum_range'_map] at h
  rw [hm, Finset.sum_range_succ']
  have hsum : ∑ j ∈ Finset.range m,
      (ν ^ (2 * (j + 1)) * ((z - r ^ 2 ^ (j + 1))⁻¹ * (openedScalar f g r (A.getD · 0) (j + 1) false - pos.getD (j + 1) 0)) +
         ν ^ (2 * (j + 1) + 1) * ((z + r ^ 2 ^ (j + 1))⁻¹ * (openedScalar f g r (A.getD · 0) (j + 1) true - negs.getD (j + 1) 0)))
      = -(∑ j ∈ Finset.range m, -1 * (νs.getD (2 * (j + 1) + 1) 0 * inv.getD (2 * (j + 1) + 1) 0
          + νs.getD (2 * (j + 1)) 0 * inv.getD (2 * (j + 1)) 0) * A.getD (j + 1 - 1) 0)
        - ∑ j ∈ Finset.range m, (νs.getD (2 * (j + 1) + 1) 0 * inv.getD (2 * (j + 1) + 1) 0 * negs.getD (j + 1) 0
          + νs.getD (2 * (j + 1)) 0 * inv.getD (2 * (j + 1)) 0 * pos.getD (j + 1) 0) := by
    rw [← Finset.sum_neg_distrib, ← Finset.sum_sub_distrib]
    refine Finset.sum_congr rfl fun j hj => ?_
    have hj := Finset.mem_range.1 hj
    rw [hνj _ (by omega), hνj _ (by omega), (hinv _ (by omega)).1, (hinv _ (by omega)).2]
    simp only [openedScalar, Nat.succ_ne_zero, if_false]
    ring
  rw [hsum]
  simp only [openedScalar, if_true, mul_zero, zero_add, pow_zero, pow_one, one_mul, Bool.false_eq_true, if_false]
  rw [← hun, ← hsh, hi0.1, hi0.2] at h
  linear_combination h

end Exponent

section Polys

variable {F : Type} [Field F] [DecidableEq F]

theorem roots_card (p : F[X]) {n : Nat} (h : p.natDegree ≤ n) : p.roots.toFinset.card ≤ n :=
  (Multiset.toFinset_card_le _).trans ((card_roots' p).trans h)

theorem eq_zero_of_root {p : F[X]} {x : F} (hx : x ∉ p.roots.toFinset) (h : p.eval x = 0) : p = 0 := by
  by_contra hp
  exact hx (Multiset.mem_toFinset.2 ((mem_roots hp).2 h))

/-- If the quotient is right at a point that is not bad, the claimed values are true. -/
theorem quotient_sound {ι : Type} [DecidableEq ι] (s : Finset ι) (x : ι → F) (hx : ∀ k ∈ s, ∀ i ∈ s, x k = x i → k = i) (B : ι → F[X])
    (b c : ι → F) (hc : ∀ k ∈ s, c k ≠ 0) (Q : F[X]) {N : Nat} (hQ : Q.natDegree ≤ N) (hB : ∀ k ∈ s, (B k).natDegree ≤ N) :
    ∃ Bz : Finset F, Bz.card ≤ N + 2 * s.card ∧ ∀ z ∉ Bz,
      Q.eval z = ∑ k ∈ s, c k * ((z - x k)⁻¹ * ((B k).eval z - b k)) → ∀ k ∈ s, (B k).eval (x k) = b k := by
  obtain ⟨R, hR⟩ : ∃ R, Q * ∏ k ∈ s, (X - C (x k)) - ∑ k ∈ s, C (c k) * (B k - C (b k)) * ∏ i ∈ s.erase k, (X - C (x i)) = R := ⟨_, rfl⟩
  have hprod : ∀ t : Finset ι, (∏ k ∈ t, (X - C (x k))).natDegree ≤ t.card := fun t => by
    rw [natDegree_prod_of_monic _ _ fun k _ => monic_X_sub_C _]
    simp
  have hdeg : R.natDegree ≤ N + s.card := by
    rw [← hR]
    refine (natDegree_sub_le_of_le (n := N + s.card) (natDegree_mul_le_of_le hQ (hprod s)) (natDegree_sum_le_of_forall_le _ _ fun k hk => ?_)).trans
      (max_self _).le
    refine natDegree_mul_le_of_le (natDegree_C_mul_le _ _ |>.trans ?_) ((hprod _).trans (Finset.card_erase_le))
    exact (natDegree_sub_C (p := B k) (a := b k)).le.trans (hB k hk)
  refine ⟨R.roots.toFinset ∪ s.image x, ?_, fun z hz h k hk => ?_⟩
  · refine (Finset.card_union_le _ _).trans ?_
    have := roots_card R hdeg
    have := Finset.card_image_le (s := s) (f := x)
    omega
  rw [Finset.mem_union, not_or] at hz
  have hzx : ∀ k ∈ s, z - x k ≠ 0 := fun k hk e => hz.2 (Finset.mem_image.2 ⟨k, hk, (sub_eq_zero.1 e).symm⟩)
  have hRz : R.eval z = 0 := by
    rw [← hR, eval_sub, eval_mul, h, eval_finsetSum, Finset.sum_mul, ← Finset.sum_sub_distrib]
    refine Finset.sum_eq_zero fun k hk => ?_
    rw [eval_mul, eval_mul, eval_sub, eval_C, eval_C, eval_prod, eval_prod, ← Finset.mul_prod_erase s _ hk]
    simp only [eval_sub, eval_X, eval_C]
    have := hzx k hk
    field_simp
    ring
  have hR0 := eq_zero_of_root hz.1 hRz
  have he : R.eval (x k) = 0 := by rw [hR0, eval_zero]
  rw [← hR, eval_sub, eval_mul, eval_prod, Finset.prod_eq_zero hk (by simp), mul_zero, zero_sub, neg_eq_zero, eval_finsetSum,
    Finset.sum_eq_single_of_mem k hk] at he
  · rw [eval_mul, eval_mul, eval_C, eval_sub, eval_C, eval_prod] at he
    rcases mul_eq_zero.1 he with he | he
    · exact sub_eq_zero.1 ((mul_eq_zero.1 he).resolve_left (hc k hk))
    · obtain ⟨i, hi, he⟩ := Finset.prod_eq_zero_iff.1 he
      rw [eval_sub, eval_X, eval_C, sub_eq_zero] at he
      exact absurd (hx k hk i (Finset.mem_of_mem_erase hi) he).symm (Finset.ne_of_mem_erase hi)
  · intro i hi hik
    rw [eval_mul, eval_prod, Finset.prod_eq_zero (Finset.mem_erase.2 ⟨Ne.symm hik, hk⟩) (by simp), mul_zero]

/-- The condition that the next polynomial is the fold of this one. -/
noncomputable def foldError (u : F) (a b : F[X]) : F[X] :=
  C 2 * (X * expand F 2 b) - C (1 - u) * (X * (a + a.comp (C (-1) * X))) - C u * (a - a.comp (C (-1) * X))

theorem foldError_eval (u : F) (a b : F[X]) (x : F) : (foldError u a b).eval x =
    2 * (x * b.eval (x ^ 2)) - (1 - u) * (x * (a.eval x + a.eval (-x))) - u * (a.eval x - a.eval (-x)) := by
  simp [foldError, expand_eval, eval_comp]

theorem natDegree_neg_comp (a : F[X]) : (a.comp (C (-1) * X)).natDegree ≤ a.natDegree :=
  natDegree_comp_le.trans ((Nat.mul_le_mul_left _ ((natDegree_C_mul_le _ _).trans natDegree_X_le)).trans (by simp))

theorem foldError_natDegree {N : Nat} (u : F) {a b : F[X]} (ha : a.natDegree ≤ N) (hb : b.natDegree ≤ N) :
    (foldError u a b).natDegree ≤ 2 * N + 1 := by
  have hn := (natDegree_neg_comp a).trans ha
  have h1 : (X * expand F 2 b).natDegree ≤ 2 * N + 1 := (natDegree_mul_le_of_le natDegree_X_le (natDegree_expand 2 b).le).trans (by omega)
  have h2 : (X * (a + a.comp (C (-1) * X))).natDegree ≤ 2 * N + 1 :=
    (natDegree_mul_le_of_le natDegree_X_le (natDegree_add_le_of_degree_le ha hn)).trans (by omega)
  have h3 : (a - a.comp (C (-1) * X)).natDegree ≤ 2 * N + 1 := (natDegree_sub_le_of_le ha hn).trans (by simp; omega)
  rw [foldError]
  refine (natDegree_sub_le_of_le (natDegree_sub_le_of_le ((natDegree_C_mul_le _ _).trans h1) ((natDegree_C_mul_le _ _).trans h2))
    ((natDegree_C_mul_le _ _).trans h3)).trans (by simp)

theorem foldError_zero (h2 : (2 : F) ≠ 0) {u : F} {a b : F[X]} (h : foldError u a b = 0) (k : Nat) :
    b.coeff k = a.coeff (2 * k) + (a.coeff (2 * k + 1) - a.coeff (2 * k)) * u := by
  have hc := congrArg (fun p : F[X] => p.coeff (2 * k + 1)) h
  simp only [foldError, coeff_sub, coeff_C_mul, coeff_X_mul, coeff_add, comp_C_mul_X_coeff, coeff_expand_mul' (by decide : 0 < 2), coeff_zero] at hc
  rw [show (-1 : F) ^ (2 * k + 1) = -1 by rw [pow_succ, pow_mul]; simp, show (-1 : F) ^ (2 * k) = 1 by rw [pow_mul]; simp] at hc
  apply mul_left_cancel₀ h2
  linear_combination hc

/-- The same for the first polynomial, which is `f + g / X`, in terms of `X f + g`. -/
noncomputable def firstError (u : F) (a b : F[X]) : F[X] :=
  C 2 * (X * (X * expand F 2 b)) - C (1 - u) * (X * (a - a.comp (C (-1) * X))) - C u * (a + a.comp (C (-1) * X))

theorem firstError_eval (u : F) (a b : F[X]) (x : F) : (firstError u a b).eval x =
    2 * (x * (x * b.eval (x ^ 2))) - (1 - u) * (x * (a.eval x - a.eval (-x))) - u * (a.eval x + a.eval (-x)) := by
  simp [firstError, expand_eval, eval_comp]

theorem firstError_natDegree {N : Nat} (u : F) {a b : F[X]} (ha : a.natDegree ≤ N + 1) (hb : b.natDegree ≤ N) :
    (firstError u a b).natDegree ≤ 2 * N + 2 := by
  have hn := (natDegree_neg_comp a).trans ha
  have h1 : (X * (X * expand F 2 b)).natDegree ≤ 2 * N + 2 :=
    (natDegree_mul_le_of_le natDegree_X_le (natDegree_mul_le_of_le natDegree_X_le (natDegree_expand 2 b).le)).trans (by omega)
  have h2 : (X * (a - a.comp (C (-1) * X))).natDegree ≤ 2 * N + 2 :=
    (natDegree_mul_le_of_le natDegree_X_le (natDegree_sub_le_of_le ha hn)).trans (by simp; omega)
  have h3 : (a + a.comp (C (-1) * X)).natDegree ≤ 2 * N + 2 := (natDegree_add_le_of_degree_le ha hn).trans (by omega)
  rw [firstError]
  refine (natDegree_sub_le_of_le (natDegree_sub_le_of_le ((natDegree_C_mul_le _ _).trans h1) ((natDegree_C_mul_le _ _).trans h2))
    ((natDegree_C_mul_le _ _).trans h3)).trans (by simp)

theorem firstError_zero (h2 : (2 : F) ≠ 0) {u : F} {a b : F[X]} (h : firstError u a b = 0) (k : Nat) :
    b.coeff k = a.coeff (2 * k + 1) + (a.coeff (2 * k + 2) - a.coeff (2 * k + 1)) * u := by
  have hc := congrArg (fun p : F[X] => p.coeff (2 * k + 1 + 1)) h
  simp only [firstError, coeff_sub, coeff_C_mul, coeff_X_mul, coeff_add, comp_C_mul_X_coeff, coeff_expand_mul' (by decide : 0 < 2), coeff_zero] at hc
  rw [show (-1 : F) ^ (2 * k + 1 + 1) = 1 by rw [pow_succ, pow_succ, pow_mul]; simp, show (-1 : F) ^ (2 * k + 1) = -1 by rw [pow_succ, pow_mul]; simp] at hc
  apply mul_left_cancel₀ h2
  linear_combination hc

theorem firstError_constant (h2 : (2 : F) ≠ 0) {u : F} {a b : F[X]} (h : firstError u a b = 0) : u * a.coeff 0 = 0 := by
  have hc := congrArg (fun p : F[X] => p.coeff 0) h
  simp only [firstError, coeff_sub, coeff_C_mul, coeff_X_mul_zero, coeff_add, comp_C_mul_X_coeff, coeff_zero, pow_zero, mul_one, mul_zero] at hc
  apply mul_left_cancel₀ h2
  linear_combination -hc

omit [DecidableEq F] in
/-- Folding over and over gives the value of the multilinear extension. -/
theorem folds_extension (us : List F) (c : Nat → Nat → F)
    (h : ∀ j < us.length, ∀ k, c (j + 1) k = c j (2 * k) + (c j (2 * k + 1) - c j (2 * k)) * us.getD j 0) : c us.length 0 = extension (c 0) us := by
  induction us generalizing c with
  | nil => simp [extension]
  | cons u us ih =>
    rw [extension_cons, List.length_cons, ih (fun j => c (j + 1)) fun j hj k => h (j + 1) (by simpa using hj) k]
    congr 1
    funext k
    exact h 0 (by simp) k

/-- A sum with weights that are powers, as a polynomial in the challenge. -/
noncomputable def weighted : List F → F[X]
  | [] => 0
  | v :: vs => C v + X * weighted vs

theorem weighted_eval (ρ k : F) (l : List F) : k * (weighted l).eval ρ = wsum ρ k l := by
  induction l generalizing k with
  | nil => simp [weighted, wsum]
  | cons v l ih => rw [wsum, ← ih, weighted]; simp; ring

theorem weighted_natDegree (l : List F) : (weighted l).natDegree ≤ l.length - 1 := by
  induction l with
  | nil => simp [weighted]
  | cons v l ih =>
    cases l with
    | nil => simp [weighted]
    | cons w l =>
      rw [weighted]
      refine natDegree_add_le_of_degree_le (by simp) ((natDegree_mul_le_of_le natDegree_X_le ih).trans ?_)
      simp only [List.length_cons]; omega

theorem weighted_zero {l : List F} (h : weighted l = 0) : ∀ v ∈ l, v = 0 := by
  induction l with
  | nil => simp
  | cons v l ih =>
    have h0 := congrArg (fun p : F[X] => p.coeff 0) h
    simp [weighted] at h0
    have hl : weighted l = 0 := by
      rw [weighted, h0] at h
      simpa using h
    intro w hw
    rcases List.mem_cons.1 hw with rfl | hw
    · exact h0
    · exact ih hl w hw

/-- A sum of polynomials with weights that are powers. -/
noncomputable def wpoly (ρ : F) : F → List F[X] → F[X]
  | _, [] => 0
  | k, p :: ps => C k * p + wpoly ρ (k * ρ) ps

theorem wpoly_eval (ρ k : F) (ps : List F[X]) (x : F) : (wpoly ρ k ps).eval x = wsum ρ k (ps.map fun p => p.eval x) := by
  induction ps generalizing k with
  | nil => simp [wpoly, wsum]
  | cons p ps ih => simp [wpoly, wsum, ih]

theorem wpoly_coeff (ρ k : F) (ps : List F[X]) (i : Nat) : (wpoly ρ k ps).coeff i = wsum ρ k (ps.map fun p => p.coeff i) := by
  induction ps generalizing k with
  | nil => simp [wpoly, wsum]
  | cons p ps ih => simp [wpoly, wsum, ih]

theorem wpoly_natDegree (ρ k : F) {ps : List F[X]} {N : Nat} (h : ∀ p ∈ ps, p.natDegree ≤ N) : (wpoly ρ k ps).natDegree ≤ N := by
  induction ps generalizing k with
  | nil => simp [wpoly]
  | cons p ps ih =>
    exact natDegree_add_le_of_degree_le ((natDegree_C_mul_le _ _).trans (h p (by simp))) (ih _ fun q hq => h q (by simp [hq]))

theorem wsum_sub {α : Type} (ρ k : F) (l : List α) (a b : α → F) :
    wsum ρ k (l.map fun c => a c - b c) = wsum ρ k (l.map a) - wsum ρ k (l.map b) := by
  induction l generalizing k with
  | nil => simp [wsum]
  | cons c l ih => simp only [List.map_cons, wsum, ih]; ring

theorem getD_natDegree {A : List F[X]} {N : Nat} (h : ∀ a ∈ A, a.natDegree ≤ N) (i : Nat) : (A.getD i 0).natDegree ≤ N := by
  by_cases hi : i < A.length
  · rw [List.getD_eq_getElem _ _ hi]; exact h _ (List.getElem_mem hi)
  · rw [List.getD_eq_default _ _ (by omega)]; simp

/-- The points are distinct if a challenge is not bad. -/
theorem points_distinct (h2 : (2 : F) ≠ 0) {r : F} (hr : r ≠ 0) {D : Nat} (h : ∀ i j, i < j → j ≤ D → r ^ 2 ^ i ≠ r ^ 2 ^ j) {i j : Nat}
    (hi : i < D) (hj : j < D) {b c : Bool}
    (e : (if b then -r ^ 2 ^ i else r ^ 2 ^ i) = (if c then -r ^ 2 ^ j else r ^ 2 ^ j)) : (i, b) = (j, c) := by
  have sq : r ^ 2 ^ (i + 1) = r ^ 2 ^ (j + 1) := by
    have e := congrArg (· ^ 2) e
    rw [pow_succ 2 i, pow_mul, pow_succ 2 j, pow_mul]
    cases b <;> cases c <;> simpa using e
  obtain rfl : i = j := by
    rcases Nat.lt_trichotomy i j with hl | hl | hl
    · exact absurd sq (h _ _ (by omega) (by omega))
    · exact hl
    · exact absurd sq.symm (h _ _ (by omega) (by omega))
  have hx : r ^ 2 ^ i ≠ 0 := pow_ne_zero _ hr
  have hx2 : r ^ 2 ^ i ≠ -r ^ 2 ^ i := fun e => by
    have : 2 * r ^ 2 ^ i = 0 := by linear_combination e
    exact (mul_eq_zero.1 this).elim h2 hx
  cases b <;> cases c <;> simp at e ⊢
  · exact hx2 e
  · exact hx2 e.symm

end Polys

end Verif.Honk
