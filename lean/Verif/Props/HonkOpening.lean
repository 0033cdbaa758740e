import Verif.Honk.ShpleminiSound
import Verif.Props.HonkBuild

/-!
# UltraHonk: the verifier accepts only true openings (C123)

The prover is algebraic: every point it sends is a combination of the points of the reference string that it knows.  So there is a polynomial
behind every point, and the secret of the reference string is chosen independently of these polynomials.
-/

namespace Verif.Honk

open Polynomial

variable {F G H T : Type} [Field F] [DecidableEq F] [AddCommGroup G] [Module F G] [AddCommGroup H] [Module F H] [AddCommGroup T]
  [Module F T] [DecidableEq T]

/-- The claimed values are the values of the multilinear extensions of the coefficients, and for the shifted columns those of the
coefficients from the second on.  The columns that are shifted begin with zero, unless the first challenge of the sumcheck is zero. -/
def TrueClaims (us : List F) (P : Col → F[X]) (evals : Col → F) : Prop :=
  (∀ c ∈ Col.unshifted, evals c = extension (P c).coeff us) ∧
    (∀ p ∈ Col.toBeShifted.zip Col.shifts, evals p.2 = extension (fun i => (P p.1).coeff (i + 1)) us) ∧
    (us.getD 0 0 ≠ 0 → ∀ c ∈ Col.toBeShifted, (P c).coeff 0 = 0)

/-- If a claim is false, the verifier rejects, unless a challenge or the secret of the reference string falls into a small set that
is fixed before. -/
theorem C123_opening (h2 : (2 : F) ≠ 0) (e : G →ₗ[F] H →ₗ[F] T) {gen : G} {g2 : H} (hne : e gen g2 ≠ 0) (us : List F) {N : Nat}
    (P : Col → F[X]) (hP : ∀ c, (P c).natDegree ≤ N) (evals : Col → F) (hfalse : ¬ TrueClaims us P evals) :
    ∃ Bρ : Finset F, Bρ.card ≤ 45 ∧ ∀ ρ ∉ Bρ, ∀ A : List F[X], (∀ a ∈ A, a.natDegree ≤ N) →
    ∃ Br : Finset F, Br.card ≤ (2 * N + 2) * 2 ^ us.length + (us.length + 1) ^ 2 * 2 ^ us.length ∧ ∀ r ∉ Br, ∀ (negs : List F) (ν : F), ν ≠ 0 →
    ∀ Q : F[X], Q.natDegree ≤ N →
    ∃ Bz : Finset F, Bz.card ≤ N + 4 * us.length ∧ ∀ z ∉ Bz, ∀ W : F[X], W.natDegree ≤ N →
    ∃ Bτ : Finset F, Bτ.card ≤ N + 1 ∧ ∀ τ ∉ Bτ, ∀ ch : PcsChallenges F G,
      let proof : PcsProof F G := ⟨A.map fun a => a.eval τ • gen, negs, Q.eval τ • gen, W.eval τ • gen⟩
      ch.rho = ρ → ch.r proof.folds = r → ch.nu proof.folds proof.evals = ν → ch.z proof.folds proof.evals proof.q = z →
        shpleminiVerify e gen g2 (τ • g2) ch us (fun c => (P c).eval τ • gen) evals proof ≠ .ok true := by
  obtain ⟨D, hD⟩ : ∃ D, us.length = D := ⟨_, rfl⟩
  rw [hD]
  let Z := Col.toBeShifted.zip Col.shifts
  let L := (Col.unshifted.map fun c => extension (P c).coeff us - evals c) ++
    (Z.map fun p => extension (fun i => (P p.1).coeff (i + 1)) us - evals p.2)
  have hL : L.length = 41 := by rw [List.length_append, List.length_map, List.length_map]; decide
  let L0 := Z.map fun p => (P p.1).coeff 0
  have hL0 : L0.length = 5 := by rw [List.length_map]; decide
  refine ⟨(weighted L).roots.toFinset ∪ ((weighted L0).roots.toFinset ∪ {0}), ?_, fun ρ hρ A hA => ?_⟩
  · have h1 := roots_card _ (weighted_natDegree L)
    have h3 := roots_card _ (weighted_natDegree L0)
    have h4 := Finset.card_union_le (weighted L).roots.toFinset ((weighted L0).roots.toFinset ∪ {0})
    have h5 := Finset.card_union_le (weighted L0).roots.toFinset {0}
    rw [Finset.card_singleton] at h5
    omega
  obtain ⟨hρ, hρ'⟩ := not_or.1 (fun h => hρ (Finset.mem_union.2 h))
  obtain ⟨hρ', hρ0⟩ := not_or.1 (fun h => hρ' (Finset.mem_union.2 h))
  rw [Finset.mem_singleton] at hρ0
  obtain ⟨f, hf⟩ : ∃ f, wpoly ρ 1 (Col.unshifted.map P) = f := ⟨_, rfl⟩
  obtain ⟨g, hg⟩ : ∃ g, wpoly ρ (ρ ^ Col.unshifted.length) (Z.map fun p => P p.1) = g := ⟨_, rfl⟩
  obtain ⟨v, hv⟩ : ∃ v, wsum ρ 1 (Col.unshifted.map evals) + wsum ρ (ρ ^ Col.unshifted.length) (Z.map fun p => evals p.2) = v := ⟨_, rfl⟩
  have hfd : f.natDegree ≤ N := hf ▸ wpoly_natDegree _ _ fun p hp => by obtain ⟨c, -, rfl⟩ := List.mem_map.1 hp; exact hP c
  have hgd : g.natDegree ≤ N := hg ▸ wpoly_natDegree _ _ fun p hp => by obtain ⟨c, -, rfl⟩ := List.mem_map.1 hp; exact hP _
  -- the batched claim is false
  have hval : ¬ (extension (fun i => f.coeff i + g.coeff (i + 1)) us = v ∧ (us.getD 0 0 ≠ 0 → g.coeff 0 = 0)) := by
    rintro ⟨he, hg0⟩
    have hw : wsum ρ 1 L = 0 := by
      rw [wsum_append, wsum_sub, wsum_sub, List.length_map, one_mul]
      rw [extension_add] at he
      have e1 : extension (fun i => f.coeff i) us = wsum ρ 1 (Col.unshifted.map fun c => extension (P c).coeff us) := by
        have := extension_wsum ρ 1 (Col.unshifted.map fun c i => (P c).coeff i) us
        rw [List.map_map] at this
        refine Eq.trans (congrArg (extension · us) (funext fun i => ?_)) this
        rw [← hf, wpoly_coeff, List.map_map, List.map_map]; rfl
      have e2 : extension (fun i => g.coeff (i + 1)) us = wsum ρ (ρ ^ Col.unshifted.length) (Z.map fun p => extension (fun i => (P p.1).coeff (i + 1)) us) := by
        have := extension_wsum ρ (ρ ^ Col.unshifted.length) (Z.map fun p i => (P p.1).coeff (i + 1)) us
        rw [List.map_map] at this
        refine Eq.trans (congrArg (extension · us) (funext fun i => ?_)) this
        rw [← hg, wpoly_coeff, List.map_map, List.map_map]; rfl
      rw [e1, e2, ← hv] at he
      linear_combination he
    have h0 := weighted_zero (eq_zero_of_root hρ (by have := weighted_eval ρ 1 L; rw [one_mul] at this; rw [this, hw]))
    have hw0 : us.getD 0 0 ≠ 0 → weighted L0 = 0 := fun hu => by
      refine eq_zero_of_root hρ' ((mul_eq_zero.1 ?_).resolve_left (pow_ne_zero Col.unshifted.length hρ0))
      rw [weighted_eval, ← hg0 hu, ← hg, wpoly_coeff, List.map_map]
      rfl
    have hcov : ∀ c ∈ Col.toBeShifted, ∃ p ∈ Col.toBeShifted.zip Col.shifts, p.1 = c := by decide
    refine hfalse ⟨fun c hc => (sub_eq_zero.1 (h0 _ (List.mem_append_left _ (List.mem_map.2 ⟨c, hc, rfl⟩)))).symm,
      fun p hp => (sub_eq_zero.1 (h0 _ (List.mem_append_right _ (List.mem_map.2 ⟨p, hp, rfl⟩)))).symm,
      fun hu c hc => by
        obtain ⟨p, hp, rfl⟩ := hcov c hc
        exact weighted_zero (hw0 hu) _ (List.mem_map.2 ⟨p, hp, rfl⟩)⟩
  let B : Nat → F[X] := fun j => if j = D then C v else A.getD (j - 1) 0
  have hBd : ∀ j, (B j).natDegree ≤ N := fun j => by
    simp only [B]; split
    · simp
    · exact getD_natDegree hA _
  let err : Nat → F[X] := fun j => if j = 0 then firstError (us.getD 0 0) (X * f + g) (B 1) else foldError (us.getD j 0) (B j) (B (j + 1))
  have herr : ∀ j, (err j).natDegree ≤ 2 * N + 2 := fun j => by
    simp only [err]; split
    · exact firstError_natDegree _ (natDegree_add_le_of_degree_le ((natDegree_mul_le_of_le natDegree_X_le hfd).trans (by omega)) (by omega)) (hBd 1)
    · exact (foldError_natDegree _ (hBd _) (hBd _)).trans (by omega)
  let Br : Finset F := ((Finset.range D).biUnion fun j => (expand F (2 ^ j) (err j)).roots.toFinset) ∪
    ((Finset.range (D + 1) ×ˢ Finset.range (D + 1)).biUnion fun p => if p.1 < p.2 then ((X : F[X]) ^ 2 ^ p.1 - X ^ 2 ^ p.2).roots.toFinset else ∅)
  have hBr : Br.card ≤ (2 * N + 2) * 2 ^ D + (D + 1) ^ 2 * 2 ^ D := by
    refine (Finset.card_union_le _ _).trans (Nat.add_le_add ?_ ?_)
    · refine Finset.card_biUnion_le.trans ?_
      have hs : ∑ j ∈ Finset.range D, 2 ^ j ≤ 2 ^ D := by
        have := Nat.geomSum_eq (le_refl 2) D
        rw [this]; simp
      calc _ ≤ ∑ j ∈ Finset.range D, (2 * N + 2) * 2 ^ j := Finset.sum_le_sum fun j _ => roots_card _ (by
            rw [natDegree_expand]; exact Nat.mul_le_mul_right _ (herr j))
        _ ≤ _ := by rw [← Finset.mul_sum]; exact Nat.mul_le_mul_left _ hs
    · refine Finset.card_biUnion_le.trans ?_
      calc _ ≤ ∑ _p ∈ Finset.range (D + 1) ×ˢ Finset.range (D + 1), 2 ^ D := Finset.sum_le_sum fun p hp => by
            obtain ⟨h1, h3⟩ := Finset.mem_product.1 hp
            have h1 := Finset.mem_range.1 h1
            have h3 := Finset.mem_range.1 h3
            split
            · refine roots_card _ ((natDegree_sub_le_of_le (natDegree_X_pow_le _) (natDegree_X_pow_le _)).trans (max_le ?_ ?_)) <;>
                exact Nat.pow_le_pow_right (by decide) (by omega)
            · simp
        _ = _ := by rw [Finset.sum_const, Finset.card_product, Finset.card_range, smul_eq_mul, pow_two]
  refine ⟨Br, hBr, fun r hr negs ν hν Q hQ => ?_⟩
  have hr1 : ∀ j < D, (err j).eval (r ^ 2 ^ j) = 0 → err j = 0 := fun j hj h0 => by
    refine (expand_eq_zero (Nat.two_pow_pos j)).1 (eq_zero_of_root (x := r) (fun hm => hr ?_) (by rw [expand_eval, h0]))
    exact Finset.mem_union_left _ (Finset.mem_biUnion.2 ⟨j, Finset.mem_range.2 hj, hm⟩)
  have hr2 : ∀ i j, i < j → j ≤ D → r ^ 2 ^ i ≠ r ^ 2 ^ j := fun i j hij hj he => by
    have hz : ((X : F[X]) ^ 2 ^ i - X ^ 2 ^ j) = 0 := by
      refine eq_zero_of_root (x := r) (fun hm => hr ?_) (by simp [he])
      refine Finset.mem_union_right _ (Finset.mem_biUnion.2 ⟨(i, j), Finset.mem_product.2 ⟨Finset.mem_range.2 (by omega), Finset.mem_range.2 (by omega)⟩, ?_⟩)
      rw [if_pos hij]; exact hm
    have hc := congrArg (fun p : F[X] => p.coeff (2 ^ i)) hz
    have : (2 : Nat) ^ i ≠ 2 ^ j := (Nat.pow_lt_pow_right (by decide) hij).ne
    simp [coeff_X_pow, this] at hc
  cases hpos : foldPosValues v (List.zipWith (fun x y => (x, y)) (List.iterate (fun x => x * x) r us.length) (List.zipWith (fun u n => (u, n)) us negs)) with
  | error err =>
    refine ⟨∅, by simp, fun z _ W _ => ⟨∅, by simp, fun τ _ ch => ?_⟩⟩
    intro proof hcρ hcr hcν hcz hver
    obtain ⟨-, -, -, -, pos, hpos', -⟩ := verify_exponent (A := A.map fun a => a.eval τ) (r := r) (ν := ν) (z := z) hne
      (show shpleminiVerify e gen g2 (τ • g2) ch us (fun c => (P c).eval τ • gen) evals
        ⟨(A.map fun a => a.eval τ).map (· • gen), negs, Q.eval τ • gen, W.eval τ • gen⟩ = .ok true by rw [List.map_map]; exact hver)
      (by rw [List.map_map]; exact hcr) (by rw [List.map_map]; exact hcν) (by rw [List.map_map]; exact hcz)
    rw [hcρ] at hpos'
    rw [← hv] at hpos
    cases hpos.symm.trans hpos'
  | ok pos =>
    let B' : Nat × Bool → F[X] := fun k => if k.1 = 0 then (if k.2 then f - C r⁻¹ * g else f + C r⁻¹ * g) else A.getD (k.1 - 1) 0
    let b' : Nat × Bool → F := fun k => if k.2 then negs.getD k.1 0 else pos.getD k.1 0
    let x' : Nat × Bool → F := fun k => if k.2 then -r ^ 2 ^ k.1 else r ^ 2 ^ k.1
    let c' : Nat × Bool → F := fun k => ν ^ (2 * k.1 + if k.2 then 1 else 0)
    have hB'd : ∀ k, (B' k).natDegree ≤ N := fun k => by
      simp only [B']; split
      · split
        · exact (natDegree_sub_le_of_le hfd ((natDegree_C_mul_le _ _).trans hgd)).trans (max_self _).le
        · exact natDegree_add_le_of_degree_le hfd ((natDegree_C_mul_le _ _).trans hgd)
      · exact getD_natDegree hA _
    by_cases hr0 : r = 0
    · refine ⟨∅, by simp, fun z _ W _ => ⟨∅, by simp, fun τ _ ch => ?_⟩⟩
      intro proof hcρ hcr hcν hcz hver
      exact (verify_exponent (A := A.map fun a => a.eval τ) (r := r) (ν := ν) (z := z) hne
        (show shpleminiVerify e gen g2 (τ • g2) ch us (fun c => (P c).eval τ • gen) evals
          ⟨(A.map fun a => a.eval τ).map (· • gen), negs, Q.eval τ • gen, W.eval τ • gen⟩ = .ok true by rw [List.map_map]; exact hver)
        (by rw [List.map_map]; exact hcr) (by rw [List.map_map]; exact hcν) (by rw [List.map_map]; exact hcz)).2.1 hr0
    let s : Finset (Nat × Bool) := Finset.range D ×ˢ Finset.univ
    have hscard : s.card = 2 * D := by simp [s, mul_comm]
    obtain ⟨Bz, hBz, hz⟩ := quotient_sound s x' (fun k hk i hi he => points_distinct h2 hr0 hr2
      (Finset.mem_range.1 (Finset.mem_product.1 hk).1) (Finset.mem_range.1 (Finset.mem_product.1 hi).1) he) B' b' c' (fun k _ => pow_ne_zero _ hν) Q hQ
      (fun k _ => hB'd k)
    refine ⟨Bz, hBz.trans (by rw [hscard]; omega), fun z hzB W hW => ?_⟩
    let V : F[X] := Q - (∑ k ∈ s, C (c' k * (z - x' k)⁻¹) * (B' k - C (b' k))) + (C z - X) * W
    have hVd : V.natDegree ≤ N + 1 := by
      refine natDegree_add_le_of_degree_le ((natDegree_sub_le_of_le (n := N) hQ (natDegree_sum_le_of_forall_le _ _ fun k _ =>
        (natDegree_C_mul_le _ _).trans (natDegree_sub_C.le.trans (hB'd k)))).trans (by simp)) ((natDegree_mul_le_of_le (m := 1) ?_ hW).trans (by omega))
      exact (natDegree_sub_le_of_le (natDegree_C _).le natDegree_X_le).trans (by simp)
    refine ⟨V.roots.toFinset, roots_card _ hVd, fun τ hτ ch => ?_⟩
    intro proof hcρ hcr hcν hcz hver
    obtain ⟨hD0, -, hAl, hnl, pos', hpos', hid⟩ := verify_exponent (A := A.map fun a => a.eval τ) (r := r) (ν := ν) (z := z) hne
      (show shpleminiVerify e gen g2 (τ • g2) ch us (fun c => (P c).eval τ • gen) evals
        ⟨(A.map fun a => a.eval τ).map (· • gen), negs, Q.eval τ • gen, W.eval τ • gen⟩ = .ok true by rw [List.map_map]; exact hver)
      (by rw [List.map_map]; exact hcr) (by rw [List.map_map]; exact hcν) (by rw [List.map_map]; exact hcz)
    rw [hcρ, show Col.toBeShifted.zip Col.shifts = Z from rfl, hv] at hpos'
    obtain rfl := Except.ok.inj (hpos.symm.trans hpos')
    have hAe : ∀ i, (A.map fun a => a.eval τ).getD i 0 = (A.getD i 0).eval τ := fun i => by
      rw [List.getD, List.getElem?_map, List.getD]
      cases A[i]? <;> simp
    have hsum : ∑ k ∈ s, c' k * ((z - x' k)⁻¹ * ((B' k).eval τ - b' k)) = Q.eval τ + (z - τ) * W.eval τ := by
      rw [hid, hD, Finset.sum_product, hcρ]
      refine Finset.sum_congr rfl fun j _ => ?_
      rw [Fintype.sum_bool]
      have ef : wsum ρ 1 (Col.unshifted.map fun c => (P c).eval τ) = f.eval τ := by rw [← hf, wpoly_eval, List.map_map]; rfl
      have eg : wsum ρ (ρ ^ Col.unshifted.length) (Z.map fun p => (P p.1).eval τ) = g.eval τ := by rw [← hg, wpoly_eval, List.map_map]; rfl
      rw [show Col.toBeShifted.zip Col.shifts = Z from rfl, ef, eg]
      simp only [B', b', x', c', openedScalar, hAe]
      by_cases hj : j = 0
      · simp [hj]; ring
      · simp [hj]; ring
    have hV0 : V = 0 := by
      refine eq_zero_of_root hτ ?_
      simp only [V, eval_add, eval_sub, eval_finsetSum, eval_mul, eval_C, eval_X]
      have := hsum
      simp only [← mul_assoc] at this
      rw [this]; ring
    have hQz : Q.eval z = ∑ k ∈ s, c' k * ((z - x' k)⁻¹ * ((B' k).eval z - b' k)) := by
      have := congrArg (fun p : F[X] => p.eval z) hV0
      simp only [V, eval_add, eval_sub, eval_finsetSum, eval_mul, eval_C, eval_X, eval_zero, sub_self, zero_mul, add_zero] at this
      simp only [← mul_assoc]
      exact sub_eq_zero.1 this
    have hopen := hz z hzB hQz
    have hp : ∀ j < D, (B' (j, false)).eval (r ^ 2 ^ j) = pos.getD j 0 := fun j hj =>
      hopen (j, false) (Finset.mem_product.2 ⟨Finset.mem_range.2 hj, Finset.mem_univ _⟩)
    have hn : ∀ j < D, (B' (j, true)).eval (-r ^ 2 ^ j) = negs.getD j 0 := fun j hj =>
      hopen (j, true) (Finset.mem_product.2 ⟨Finset.mem_range.2 hj, Finset.mem_univ _⟩)
    have hsteps := (foldPosValues_steps hnl hpos).2
    rw [hD] at hsteps
    have hnext : ∀ j < D, (if j + 1 = D then v else pos.getD (j + 1) 0) = (B (j + 1)).eval ((r ^ 2 ^ j) ^ 2) := fun j hj => by
      simp only [B]
      split
      · simp
      · rw [← hp (j + 1) (by omega), ← pow_mul, ← pow_succ]
        simp [B']
    -- every polynomial is the fold of the one before
    have hz0 : ∀ j < D, err j = 0 := fun j hj => by
      refine hr1 j hj ?_
      have h1 := hsteps j hj
      rw [hnext j hj, ← hp j hj, ← hn j hj] at h1
      by_cases hj0 : j = 0
      · subst hj0
        simp only [B', if_true, Bool.false_eq_true, if_false, pow_zero, pow_one, eval_add, eval_sub, eval_mul, eval_C] at h1
        simp only [err, if_true, firstError_eval, pow_zero, pow_one, eval_add, eval_mul, eval_X]
        field_simp at h1
        linear_combination -h1
      · simp only [B', hj0, if_false] at h1
        have hBj : B j = A.getD (j - 1) 0 := by simp only [B]; rw [if_neg (by omega)]
        simp only [err, hj0, if_false, foldError_eval, hBj]
        linear_combination -h1
    refine hval ⟨?_, fun hu => ?_⟩
    swap
    · have h0 := hz0 0 (by omega)
      simp only [err, if_true] at h0
      have h0 := firstError_constant h2 h0
      simpa using (mul_eq_zero.1 h0).resolve_left hu
    have hext := folds_extension us (fun j k => if j = 0 then (X * f + g).coeff (k + 1) else (B j).coeff k) (fun j hj k => by
      rw [hD] at hj
      by_cases hj0 : j = 0
      · subst hj0
        have := hz0 0 hj
        simp only [err, if_true] at this
        simp only [if_true, Nat.zero_add, Nat.one_ne_zero, if_false]
        exact firstError_zero h2 this k
      · have := hz0 j hj
        simp only [err, hj0, if_false] at this
        simp only [hj0, if_false, Nat.succ_ne_zero]
        exact foldError_zero h2 this k)
    simp only [hD0, if_false, if_true, coeff_add, coeff_X_mul] at hext
    rw [← hext, hD]
    simp [B]

/-! ## Example -/

namespace OpeningDemo

open BuildDemo (p)

/-- A wrong claim: the columns are the constant polynomial one, so their first row is one and the others are zero; the extension at
`(10, 11, 12)` is `-990`, not five. -/
theorem wrong : ¬ TrueClaims ([10, 11, 12] : List (ZMod p)) (fun _ => C 1) (fun _ => 5) := by
  intro h
  have := h.1 .wr (by decide)
  rw [extension_cons, extension_cons, extension_cons] at this
  simp [extension, coeff_one] at this
  revert this
  decide +kernel

/-- The hypotheses hold of this claim. -/
example := C123_opening (by decide +kernel) (LinearMap.mul (ZMod p) (ZMod p)) (gen := 1) (g2 := 1) (by decide +kernel) [10, 11, 12] (N := 0)
  (fun _ => C 1) (fun _ => (natDegree_C _).le) (fun _ => 5) wrong

end OpeningDemo

end Verif.Honk
