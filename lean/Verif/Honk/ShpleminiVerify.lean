import Verif.Honk.ShpleminiRun
import Verif.Spec.HonkOpening

/-!
# Lemmas: the verifier accepts the opening proof of an honest prover
-/

namespace Verif.Honk

open Plonk (evalPublic zipInto_length)

variable {F G : Type} [Field F] [DecidableEq F] [AddCommGroup G] [Module F G]

/-- The point that belongs to scalars and commitments. -/
def termsSum (l : List (F × G)) : G := (l.map fun t => t.1 • t.2).sum

omit [DecidableEq F] in
theorem termsSum_append (l l' : List (F × G)) : termsSum (l ++ l') = termsSum l + termsSum l' := by simp [termsSum]

omit [DecidableEq F] in
theorem batchClaims_eq (ρ s : F) (gen : G) {α : Type} (l : List α) (p : α → F) (v : α → F) (st : List (F × G) × F × F) :
    termsSum (batchClaims ρ s st (l.map fun c => (p c • gen, v c))).1 = termsSum st.1 + (-s * wsum ρ st.2.2 (l.map p)) • gen ∧
      (batchClaims ρ s st (l.map fun c => (p c • gen, v c))).2.1 = st.2.1 + wsum ρ st.2.2 (l.map v) ∧
      (batchClaims ρ s st (l.map fun c => (p c • gen, v c))).2.2 = st.2.2 * ρ ^ l.length := by
  induction l generalizing st with
  | nil => simp [batchClaims, wsum]
  | cons c l ih =>
    obtain ⟨h1, h2, h3⟩ := ih (st.1 ++ [(-s * st.2.2, p c • gen)], st.2.1 + v c * st.2.2, st.2.2 * ρ)
    refine ⟨h1.trans ?_, h2.trans ?_, h3.trans ?_⟩
    · rw [termsSum_append, List.map_cons, wsum]
      simp only [termsSum, List.map_cons, List.map_nil, List.sum_cons, List.sum_nil, add_zero, smul_smul, add_assoc, ← add_smul]
      congr 2
      ring
    · rw [List.map_cons, wsum]; ring
    · rw [List.length_cons, pow_succ']; ring

omit [DecidableEq F] in
theorem gemini_foldl (gen : G) (t c p : Nat → F) (P : Nat → G) (l : List Nat) (h : ∀ j ∈ l, P j = p j • gen) (st : F × List (F × G)) :
    (l.foldl (fun st j => (st.1 + t j, st.2 ++ [(c j, P j)])) st).1 = st.1 + (l.map t).sum ∧
      termsSum (l.foldl (fun st j => (st.1 + t j, st.2 ++ [(c j, P j)])) st).2 = termsSum st.2 + (l.map fun j => c j * p j).sum • gen := by
  induction l generalizing st with
  | nil => simp
  | cons j l ih =>
    obtain ⟨h1, h2⟩ := ih (fun j hj => h j (by simp [hj])) (st.1 + t j, st.2 ++ [(c j, P j)])
    refine ⟨h1.trans ?_, h2.trans ?_⟩
    · simp [add_assoc]
    · rw [termsSum_append]
      simp [termsSum, h j (by simp), smul_smul, add_assoc, add_smul]

omit [DecidableEq F] in
theorem inverted_getD (z : F) (l : List F) (j : Nat) (hj : j < l.length) :
    (invertedDenominators z l).getD (2 * j) 0 = (z - l.getD j 0)⁻¹ ∧ (invertedDenominators z l).getD (2 * j + 1) 0 = (z + l.getD j 0)⁻¹ := by
  induction l generalizing j with
  | nil => simp at hj
  | cons x l ih =>
    cases j with
    | zero => simp [invertedDenominators]
    | succ j =>
      have := ih j (by simpa using hj)
      simpa [invertedDenominators, Nat.mul_add] using this

omit [DecidableEq F] in
theorem powers_getD (ν : F) (n i : Nat) (hi : i < n) : (List.iterate (· * ν) 1 n).getD i 0 = ν ^ i := by
  rw [← List.range_map_iterate, List.getD, List.getElem?_map, List.getElem?_range hi]
  simp only [Option.map_some, Option.getD_some]
  clear hi
  induction i with
  | zero => simp
  | succ i ih => rw [Function.iterate_succ_apply', ih, pow_succ]

/-! ## The columns -/

omit [DecidableEq F] in
theorem columns_getD (n : Nat) (table : Col → Nat → F) (c : Col) (i : Nat) : (columns n table c).getD i 0 = pad n (table c) i := by
  rw [columns, pad, List.getD, List.getElem?_map]
  by_cases h : i < n
  · simp [h]
  · simp [h]

omit [DecidableEq F] in
theorem columns_length (n : Nat) (table : Col → Nat → F) (c : Col) : (columns n table c).length = n := by simp [columns]

omit [DecidableEq F] in
theorem ev_sum (l : List F) (y : F) : evalPublic l y = ∑ i ∈ Finset.range l.length, l.getD i 0 * y ^ i := by
  induction l with
  | nil => rfl
  | cons a l ih =>
    rw [ev_cons, ih, List.length_cons, Finset.sum_range_succ', Finset.sum_mul]
    simp only [List.getD_cons_succ, List.getD_cons_zero, pow_zero, mul_one, pow_succ, mul_assoc]

omit [DecidableEq F] in
theorem commitment_eq {τ : F} {gen : G} {crs : List G} (hcrs : ∀ i P, crs[i]? = some P → P = τ ^ i • gen) {n : Nat} (hn : n ≤ crs.length)
    (table : Col → Nat → F) (c : Col) : commitment crs n (table c) = evalPublic (columns n table c) τ • gen := by
  rw [ev_sum, commitment, columns_length, Finset.sum_smul]
  refine Finset.sum_congr rfl fun i hi => ?_
  have hi := Finset.mem_range.mp hi
  rw [columns_getD, pad, if_pos hi, mul_smul]
  congr 1
  exact hcrs i _ (by rw [List.getD, List.getElem?_eq_getElem (by omega)]; rfl)

/-! ## The batched polynomials -/

section Batched

variable {ρ : F} {n : Nat} {table : Col → Nat → F} {f g : List F}

/-- The columns that are opened as they are. -/
abbrev Col.unshifted : List Col := Col.precomputed ++ Col.witness

theorem batched_f' {P W S : List Col} (hb : computeBatchedPolys (plainPcs (F := F) (G := G)) ρ n (P.map (columns n table))
    (W.map (columns n table)) (S.map (columns n table)) = (f, g)) :
    (∀ y, evalPublic f y = wsum ρ 1 ((P ++ W).map fun c => evalPublic (columns n table c) y)) ∧
      ∀ i < n, f.getD i 0 = wsum ρ 1 ((P ++ W).map fun c => pad n (table c) i) := by
  have hc : ∀ l : List Col, ∀ p ∈ l.map (columns n table), p.length ≤ n := by
    simp [columns_length]
  have hf := (congrArg Prod.fst hb).symm
  subst hf
  constructor
  · intro y
    simp only [computeBatchedPolys]
    rw [batchPolys_eval _ _ _ (by simpa [batchPolys_length] using hc W)]
    show evalPublic (List.map id _) y + _ = _
    rw [List.map_id, batchPolys_eval _ _ _ (by simpa using hc P), ev_replicate, zero_add, batchPolys_power,
      List.map_append, wsum_append]
    simp [List.map_map, Function.comp_def]
  · intro i hi
    simp only [computeBatchedPolys]
    rw [batchPolys_getD _ _ _ (by simpa [batchPolys_length] using hc W) i (by simpa [batchPolys_length] using hi)]
    show (List.map id _).getD i 0 + _ = _
    rw [List.map_id, batchPolys_getD _ _ _ (by simpa using hc P) i (by simpa using hi), batchPolys_power,
      List.map_append, wsum_append]
    simp only [List.map_map, Function.comp_def, columns_getD, List.length_map]
    simp [hi]

theorem batched_g' {P W S : List Col} (hb : computeBatchedPolys (plainPcs (F := F) (G := G)) ρ n (P.map (columns n table))
    (W.map (columns n table)) (S.map (columns n table)) = (f, g)) :
    (∀ y, evalPublic g y = wsum ρ (ρ ^ (P ++ W).length) (S.map fun c => evalPublic (columns n table c) y)) ∧
      ∀ i < n, g.getD i 0 = wsum ρ (ρ ^ (P ++ W).length) (S.map fun c => pad n (table c) i) := by
  have hc : ∀ l : List Col, ∀ p ∈ l.map (columns n table), p.length ≤ n := by
    simp [columns_length]
  have hg := (congrArg Prod.snd hb).symm
  subst hg
  constructor
  · intro y
    simp only [computeBatchedPolys]
    rw [batchPolys_eval _ _ _ (by simpa using hc S), ev_replicate, zero_add, batchPolys_power, batchPolys_power]
    simp only [List.map_map, Function.comp_def, List.length_map, List.length_append, pow_add, one_mul]
  · intro i hi
    simp only [computeBatchedPolys]
    rw [batchPolys_getD _ _ _ (by simpa using hc S) i (by simpa using hi), batchPolys_power, batchPolys_power]
    simp only [List.map_map, Function.comp_def, List.length_map, List.length_append, pow_add, one_mul, columns_getD]
    simp [hi]

theorem batched_f (hb : computeBatchedPolys (plainPcs (F := F) (G := G)) ρ n (Col.precomputed.map (columns n table))
    (Col.witness.map (columns n table)) (Col.toBeShifted.map (columns n table)) = (f, g)) :
    (∀ y, evalPublic f y = wsum ρ 1 (Col.unshifted.map fun c => evalPublic (columns n table c) y)) ∧
      ∀ i < n, f.getD i 0 = wsum ρ 1 (Col.unshifted.map fun c => pad n (table c) i) := batched_f' hb

theorem batched_g (hb : computeBatchedPolys (plainPcs (F := F) (G := G)) ρ n (Col.precomputed.map (columns n table))
    (Col.witness.map (columns n table)) (Col.toBeShifted.map (columns n table)) = (f, g)) :
    (∀ y, evalPublic g y = wsum ρ (ρ ^ Col.unshifted.length) (Col.toBeShifted.map fun c => evalPublic (columns n table c) y)) ∧
      ∀ i < n, g.getD i 0 = wsum ρ (ρ ^ Col.unshifted.length) (Col.toBeShifted.map fun c => pad n (table c) i) := batched_g' hb

/-- The batched evaluation of the verifier is the value of the polynomial that the prover folds. -/
theorem batched_value (hn : 0 < n) (hs : Shifted n table) (hfl : f.length = n) (hgl : g.length = n)
    (hb : computeBatchedPolys (plainPcs (F := F) (G := G)) ρ n (Col.precomputed.map (columns n table))
      (Col.witness.map (columns n table)) (Col.toBeShifted.map (columns n table)) = (f, g)) (us : List F) :
    wsum ρ 1 (Col.unshifted.map fun c => extension (pad n (table c)) us)
      + wsum ρ (ρ ^ Col.unshifted.length) (Col.shifts.map fun c => extension (pad n (table c)) us)
      = extension (fun i => (Plonk.zipInto (· + ·) f g.tail).getD i 0) us := by
  have e1 := extension_wsum ρ 1 (Col.unshifted.map fun c => pad n (table c)) us
  have e2 := extension_wsum ρ (ρ ^ Col.unshifted.length) (Col.shifts.map fun c => pad n (table c)) us
  simp only [List.map_map, Function.comp_def] at e1 e2
  rw [← e1, ← e2, ← extension_add]
  congr 1
  funext i
  rw [zipInto_getD (fun x => add_zero x) _ _ (by simp [hfl, hgl])]
  have hshift : wsum ρ (ρ ^ Col.unshifted.length) (Col.shifts.map fun c => pad n (table c) i) = g.tail.getD i 0 := by
    have ht : g.tail.getD i 0 = g.getD (i + 1) 0 := by simp [List.getD]
    rw [ht]
    by_cases hi : i + 1 < n
    · rw [(batched_g hb).2 _ hi]
      have hi' : i < n := by omega
      have := hs.next
      simp only [List.mem_cons, List.not_mem_nil, or_false, forall_eq_or_imp, forall_eq] at this
      obtain ⟨h1, h2, h3, h4, h5⟩ := this
      simp only [Col.shifts, Col.toBeShifted, List.map_cons, List.map_nil]
      rw [show ∀ t : Nat → F, pad n t i = t i from fun t => if_pos hi', show ∀ t : Nat → F, pad n t i = t i from fun t => if_pos hi',
        show ∀ t : Nat → F, pad n t i = t i from fun t => if_pos hi', show ∀ t : Nat → F, pad n t i = t i from fun t => if_pos hi',
        show ∀ t : Nat → F, pad n t i = t i from fun t => if_pos hi', h1 i hi', h2 i hi', h3 i hi', h4 i hi', h5 i hi']
    · rw [List.getD, List.getElem?_eq_none (by omega)]
      refine wsum_zero _ _ _ fun v hv => ?_
      obtain ⟨c, hc, rfl⟩ := List.mem_map.mp hv
      rw [pad]
      split
      next hi' =>
        have := hs.next
        simp only [List.mem_cons, List.not_mem_nil, or_false, forall_eq_or_imp, forall_eq] at this
        obtain ⟨h1, h2, h3, h4, h5⟩ := this
        have hp : ∀ t : Nat → F, pad n t (i + 1) = 0 := fun t => if_neg hi
        simp only [Col.shifts, List.mem_cons, List.not_mem_nil, or_false] at hc
        rcases hc with rfl | rfl | rfl | rfl | rfl
        · rw [h1 i hi', hp]
        · rw [h2 i hi', hp]
        · rw [h3 i hi', hp]
        · rw [h4 i hi', hp]
        · rw [h5 i hi', hp]
      next => rfl
  by_cases hi : i < n
  · rw [if_pos (by omega), (batched_f hb).2 i hi, hshift]
  · rw [if_neg (by omega), hshift, List.getD, List.getElem?_eq_none (by simp; omega)]
    rw [wsum_zero _ _ _ fun v hv => ?_]
    · exact add_zero _
    · obtain ⟨c, hc, rfl⟩ := List.mem_map.mp hv
      exact if_neg hi

theorem batched_first (hn : 0 < n) (hs : Shifted n table)
    (hb : computeBatchedPolys (plainPcs (F := F) (G := G)) ρ n (Col.precomputed.map (columns n table))
      (Col.witness.map (columns n table)) (Col.toBeShifted.map (columns n table)) = (f, g)) : g.getD 0 0 = 0 := by
  rw [(batched_g hb).2 0 hn]
  refine wsum_zero _ _ _ fun v hv => ?_
  obtain ⟨c, hc, rfl⟩ := List.mem_map.mp hv
  rw [pad, if_pos hn]
  exact hs.first c hc

end Batched

/-! ## The run -/

section Run

variable {H T : Type} [AddCommGroup H] [Module F H] [AddCommGroup T] [Module F T] [DecidableEq T]
variable {τ : F} {gen : G} {g2 g2x : H} {crs : List G} {ch : PcsChallenges F G} {logN : Nat} {us : List F} {table : Col → Nat → F}

omit [DecidableEq F] in
theorem pcsOpenings_sizes {r : F} {pos neg : List F} {k : Nat} {a : List F} (hpos : pos.length = 2 ^ (k + 1)) (hneg : neg.length = 2 ^ (k + 1)) :
    ∀ p ∈ pcsOpenings r pos neg (fullFolds us k a) us.length, p.1 ≠ [] ∧ p.1.length ≤ 2 ^ (k + 1) := by
  have hne : ∀ l : List F, l.length = 2 ^ (k + 1) → l ≠ [] ∧ l.length ≤ 2 ^ (k + 1) := fun l hl =>
    ⟨fun e => by
      have := Nat.two_pow_pos (k + 1)
      rw [e] at hl
      simp at hl
      omega, hl.le⟩
  intro p hp
  rcases List.mem_cons.mp hp with rfl | hp
  · exact hne _ hpos
  rcases List.mem_cons.mp hp with rfl | hp
  · exact hne _ hneg
  obtain ⟨j, hj, hp⟩ := List.mem_flatMap.mp hp
  have hj := List.mem_range'_1.mp hj
  have hA : (fullFolds us k a).getD (j - 1) [] ∈ fullFolds us k a := by
    have hlt : j - 1 < (fullFolds us k a).length := by rw [fullFolds_length]; omega
    rw [List.getD, List.getElem?_eq_getElem hlt, Option.getD_some]
    exact List.getElem_mem _
  have := fullFolds_sizes us k a _ hA
  simp only [List.mem_cons, List.not_mem_nil, or_false] at hp
  rcases hp with rfl | rfl <;> exact this

omit [DecidableEq F] in
theorem neg_sum_map (f : Nat → F) (l : List Nat) : -(l.map f).sum = (l.map fun j => -f j).sum := by
  induction l with
  | nil => simp
  | cons j l ih => simp [← ih, add_comm]

omit [DecidableEq F] in
theorem getD_range'_map (x : F) (f : Nat → F) (m i : Nat) (hi : i < m) : (x :: (List.range' 1 m).map f).getD (i + 1) 0 = f (i + 1) := by
  simp only [List.getD, List.getElem?_cons_succ]
  rw [List.getElem?_map, List.getElem?_range' (by omega)]
  simp [Nat.add_comm]

/-- The prover only fails if the challenge `r` is zero, and otherwise the verifier accepts. -/
theorem opening_run {e : G →ₗ[F] H →ₗ[F] T} (hsrs : Srs τ gen g2 g2x crs) (h2 : 2 ≤ logN) (hD : logN ≤ us.length) (hlen : 2 ^ logN ≤ crs.length) :
    (∃ folds, shpleminiProve plainPcs ch crs logN us (Col.precomputed.map (columns (2 ^ logN) table))
        (Col.witness.map (columns (2 ^ logN) table)) (Col.toBeShifted.map (columns (2 ^ logN) table)) =
          .error (.panic "called `Option::unwrap()` on a `None` value") ∧ ch.r folds = 0) ∨
    ∃ proof, shpleminiProve plainPcs ch crs logN us (Col.precomputed.map (columns (2 ^ logN) table))
        (Col.witness.map (columns (2 ^ logN) table)) (Col.toBeShifted.map (columns (2 ^ logN) table)) = .ok proof ∧
      (Shifted (2 ^ logN) table → GoodPoints us (ch.r proof.folds) (ch.z proof.folds proof.evals proof.q) →
        shpleminiVerify e gen g2 g2x ch us (fun c => commitment crs (2 ^ logN) (table c)) (fun c => extension (pad (2 ^ logN) (table c)) us) proof
          = .ok true) := by
  obtain ⟨k, rfl⟩ : ∃ k, logN = k + 1 := ⟨logN - 1, by omega⟩
  have hn : 0 < 2 ^ (k + 1) := Nat.two_pow_pos _
  have hD0 : 0 < us.length := by omega
  obtain ⟨f, g, hb⟩ : ∃ f g, computeBatchedPolys (plainPcs (F := F) (G := G)) ch.rho (2 ^ (k + 1)) (Col.precomputed.map (columns (2 ^ (k + 1)) table))
      (Col.witness.map (columns (2 ^ (k + 1)) table)) (Col.toBeShifted.map (columns (2 ^ (k + 1)) table)) = (f, g) := ⟨_, _, rfl⟩
  obtain ⟨hfl, hgl⟩ := computeBatched_length (G := G) ch.rho (2 ^ (k + 1)) (Col.precomputed.map (columns (2 ^ (k + 1)) table))
      (Col.witness.map (columns (2 ^ (k + 1)) table)) (Col.toBeShifted.map (columns (2 ^ (k + 1)) table))
  rw [hb] at hfl hgl
  simp only at hfl hgl
  obtain ⟨a0, ha0⟩ : ∃ a0, Plonk.zipInto (· + ·) f g.tail = a0 := ⟨_, rfl⟩
  have ha0l : a0.length = 2 ^ (k + 1) := by rw [← ha0, zipInto_length, hfl]
  obtain ⟨ps, hps⟩ : ∃ ps, fullFolds us k a0 = ps := ⟨_, rfl⟩
  have hpsl : ps.length = us.length := by rw [← hps, fullFolds_length]
  obtain ⟨folds, hfolds⟩ : ∃ folds, (ps.take (us.length - 1)).map (fun p => evalPublic p τ • gen) = folds := ⟨_, rfl⟩
  obtain ⟨r, hr⟩ : ∃ r, ch.r folds = r := ⟨_, rfl⟩
  obtain ⟨pos, hpos⟩ : ∃ pos, Plonk.zipInto (· + ·) f (g.map fun x => r⁻¹ • x) = pos := ⟨_, rfl⟩
  obtain ⟨neg, hneg⟩ : ∃ neg, Plonk.zipInto (· - ·) f (g.map fun x => r⁻¹ • x) = neg := ⟨_, rfl⟩
  have hposl : pos.length = 2 ^ (k + 1) := by rw [← hpos, zipInto_length, hfl]
  have hnegl : neg.length = 2 ^ (k + 1) := by rw [← hneg, zipInto_length, hfl]
  obtain ⟨evals, hevals⟩ : ∃ evals, evalPublic neg (-r) :: (List.range' 1 (us.length - 1)).map (fun j =>
      evalPublic (ps.getD (j - 1) []) (-r ^ 2 ^ j)) = evals := ⟨_, rfl⟩
  obtain ⟨ν, hν⟩ : ∃ ν, ch.nu folds evals = ν := ⟨_, rfl⟩
  have hsizes := pcsOpenings_sizes (us := us) (r := r) (k := k) (a := a0) hposl hnegl
  rw [hps, pcsOpenings] at hsizes
  obtain ⟨os, hos⟩ : ∃ os, (neg, -r, evalPublic neg (-r)) :: ((List.range' 1 (us.length - 1)).flatMap fun j =>
      [(ps.getD (j - 1) [], r ^ 2 ^ j, evalPublic (ps.getD (j - 1) []) (r ^ 2 ^ j)),
       (ps.getD (j - 1) [], -r ^ 2 ^ j, evalPublic (ps.getD (j - 1) []) (-r ^ 2 ^ j))]) = os := ⟨_, rfl⟩
  rw [hos] at hsizes
  obtain ⟨Q, hQ⟩ : ∃ Q, batchedQuotient nextPowerOfTwo ν ((pos, r, evalPublic pos r) :: os) = Q := ⟨_, rfl⟩
  obtain ⟨z, hz⟩ : ∃ z, ch.z folds evals (evalPublic Q τ • gen) = z := ⟨_, rfl⟩
  obtain ⟨W, hW⟩ : ∃ W, factorRoots z (partialQuotient ν z Q ((pos, r, evalPublic pos r) :: os)) = W := ⟨_, rfl⟩
  have hql := quotients_length (ν := ν) (z := z) (o := (pos, r, evalPublic pos r)) hposl hsizes
  rw [hQ, hW] at hql
  have run := shpleminiProve_spec (ch := ch) hsrs.powers h2 hD hlen hb (folds := folds) (by rw [ha0, ← hfolds]; simp only [Nat.add_sub_cancel, hps]) hr hpos hneg
    (os := (pos, r, evalPublic pos r) :: os) (by rw [ha0]; simp only [Nat.add_sub_cancel, hps, pcsOpenings, hos])
    (evals := evals) (by rw [ha0]; simp only [Nat.add_sub_cancel, hps, hevals]) hν hQ hz (by omega) (by rw [hW]; omega)
  rw [run, hW]
  by_cases hr0 : r = 0
  · exact Or.inl ⟨folds, by rw [if_pos hr0], by rw [hr, hr0]⟩
  refine Or.inr ⟨_, if_neg hr0, fun hs hgood => ?_⟩
  simp only [hr, hz] at hgood
  have hfoldsl : folds.length = us.length - 1 := by rw [← hfolds, List.length_map, List.length_take, hpsl]; omega
  have hevalsl : evals.length = us.length := by rw [← hevals, List.length_cons, List.length_map, List.length_range']; omega
  -- the first polynomial
  have hg0 := batched_first hn hs hb
  have hgt : ∀ y, evalPublic g y = evalPublic g.tail y * y := fun y => by
    cases g with
    | nil => simp [evalPublic]
    | cons x t =>
      rw [List.getD_cons_zero] at hg0
      rw [ev_cons, hg0, add_zero, List.tail_cons]
  have hgtl : g.tail.length ≤ f.length := by rw [List.length_tail, hfl, hgl]; omega
  have hgml : (g.map fun x => r⁻¹ • x).length ≤ f.length := by rw [List.length_map, hfl, hgl]
  have hA0p : evalPublic pos r = evalPublic a0 r := by
    rw [← hpos, ← ha0, ev_add hgml, ev_add hgtl, ev_smul, hgt]
    field_simp
  have hA0n : evalPublic neg (-r) = evalPublic a0 (-r) := by
    rw [← hneg, ← ha0, ev_sub hgml, ev_add hgtl, ev_smul, hgt]
    field_simp
    ring
  -- the values that the verifier computes
  obtain ⟨v, hv⟩ : ∃ v, extension (fun i => a0.getD i 0) us = v := ⟨_, rfl⟩
  have hlast := fullFolds_last us k a0 ha0l (by omega)
  have hchain := fullFolds_chain us k a0 ha0l
  rw [hps] at hlast hchain
  rw [hv] at hlast
  obtain ⟨l, hl1, -, hl3⟩ := foldPosValues_ok (x := r) hchain hlast hgood.fold (negs := evals) (fun j hj => by
    rw [← hevals]
    cases j with
    | zero => simpa using hA0n
    | succ j =>
      rw [getD_range'_map _ _ _ _ (by omega)]
      rfl) hevalsl
  have hl : ∀ j < us.length, l.getD j 0 = evalPublic ((a0 :: ps).getD j []) (r ^ 2 ^ j) := fun j hj => by
    rw [hl3, valuesAt_getD _ _ _ (by simp; omega)]
    simp only [List.getD]
    rw [List.getElem?_take_of_lt hj]
  have hneg0 : evals.getD 0 0 = evalPublic neg (-r) := by rw [← hevals]; rfl
  have hnegj : ∀ j ∈ List.range' 1 (us.length - 1), evals.getD j 0 = evalPublic (ps.getD (j - 1) []) (-r ^ 2 ^ j) := fun j hj => by
    have hj := List.mem_range'_1.mp hj
    obtain ⟨i, rfl⟩ : ∃ i, j = i + 1 := ⟨j - 1, by omega⟩
    rw [← hevals]
    rw [getD_range'_map _ _ _ _ (by omega)]
  have hposj : ∀ j ∈ List.range' 1 (us.length - 1), l.getD j 0 = evalPublic (ps.getD (j - 1) []) (r ^ 2 ^ j) := fun j hj => by
    have hj := List.mem_range'_1.mp hj
    obtain ⟨i, rfl⟩ : ∃ i, j = i + 1 := ⟨j - 1, by omega⟩
    rw [hl _ (by omega)]
    rfl
  have hfoldj : ∀ j ∈ List.range' 1 (us.length - 1), folds.getD (j - 1) 0 = evalPublic (ps.getD (j - 1) []) τ • gen := fun j hj => by
    have hj := List.mem_range'_1.mp hj
    rw [← hfolds, List.getD, List.getElem?_map, List.getElem?_take_of_lt (by omega), List.getD, List.getElem?_eq_getElem (by omega)]
    rfl
  have hsq : squares r us.length = List.iterate (fun x => x * x) r us.length := by rw [squares, max_eq_left (by omega)]
  have hsqj : ∀ j < us.length, (squares r us.length).getD j 0 = r ^ 2 ^ j := fun j hj => by
    rw [squares_eq r _ hD0, List.getD, List.getElem?_map, List.getElem?_range hj]
    rfl
  have hsql : (squares r us.length).length = us.length := by rw [squares_eq r _ hD0]; simp
  have hinv : ∀ j < us.length, (invertedDenominators z (squares r us.length)).getD (2 * j) 0 = (z - r ^ 2 ^ j)⁻¹ ∧
      (invertedDenominators z (squares r us.length)).getD (2 * j + 1) 0 = (z + r ^ 2 ^ j)⁻¹ := fun j hj => by
    have := inverted_getD z (squares r us.length) j (by omega)
    rwa [hsqj j hj] at this
  have hνj : ∀ i < 2 * us.length, (List.iterate (· * ν) 1 (2 * us.length)).getD i 0 = ν ^ i := fun i hi => powers_getD ν _ i hi
  obtain ⟨inv, hinve⟩ : ∃ inv, invertedDenominators z (squares r us.length) = inv := ⟨_, rfl⟩
  obtain ⟨νs, hνse⟩ : ∃ νs, List.iterate (· * ν) 1 (2 * us.length) = νs := ⟨_, rfl⟩
  rw [hinve] at hinv
  rw [hνse] at hνj
  have hi0 := hinv 0 hD0
  simp only [mul_zero, zero_add, pow_zero, pow_one] at hi0
  obtain ⟨un, hun⟩ : ∃ un, inv.getD 0 0 + ν * inv.getD 1 0 = un := ⟨_, rfl⟩
  obtain ⟨sh, hsh⟩ : ∃ sh, r⁻¹ * (inv.getD 0 0 - ν * inv.getD 1 0) = sh := ⟨_, rfl⟩
  -- the batched commitments
  have hcomm : (fun c => commitment crs (2 ^ (k + 1)) (table c)) = fun c => evalPublic (columns (2 ^ (k + 1)) table c) τ • gen := by
    funext c
    exact commitment_eq hsrs.powers hlen table c
  obtain ⟨hc1, hc2, hc3⟩ := batchClaims_eq ch.rho un gen Col.unshifted (fun c => evalPublic (columns (2 ^ (k + 1)) table c) τ)
    (fun c => extension (pad (2 ^ (k + 1)) (table c)) us) ([((1 : F), evalPublic Q τ • gen)], 0, 1)
  obtain ⟨stf, hstf⟩ : ∃ stf, batchClaims ch.rho un ([((1 : F), evalPublic Q τ • gen)], 0, 1) (Col.unshifted.map fun c =>
    (evalPublic (columns (2 ^ (k + 1)) table c) τ • gen, extension (pad (2 ^ (k + 1)) (table c)) us)) = stf := ⟨_, rfl⟩
  rw [hstf] at hc1 hc2 hc3
  obtain ⟨hd1, hd2, -⟩ := batchClaims_eq ch.rho sh gen (Col.toBeShifted.zip Col.shifts) (fun p => evalPublic (columns (2 ^ (k + 1)) table p.1) τ)
    (fun p => extension (pad (2 ^ (k + 1)) (table p.2)) us) stf
  obtain ⟨stg, hstg⟩ : ∃ stg, batchClaims ch.rho sh stf ((Col.toBeShifted.zip Col.shifts).map fun p =>
    (evalPublic (columns (2 ^ (k + 1)) table p.1) τ • gen, extension (pad (2 ^ (k + 1)) (table p.2)) us)) = stg := ⟨_, rfl⟩
  rw [hstg] at hd1 hd2
  have hval := batched_value hn hs hfl hgl hb us
  rw [ha0, hv] at hval
  have hstg2 : stg.2.1 = v := by
    rw [hd2, hc2, hc3, ← hval]
    simp only [zero_add, one_mul]
    rfl
  have hstg1 : termsSum stg.1 = (evalPublic Q τ - un * evalPublic f τ - sh * evalPublic g τ) • gen := by
    rw [hd1, hc1, hc3, (batched_f hb).1, (batched_g hb).1]
    simp only [termsSum, List.map_cons, List.map_nil, List.sum_cons, List.sum_nil, add_zero, smul_smul, one_mul, ← add_smul]
    congr 1
    rw [sub_eq_add_neg, sub_eq_add_neg, neg_mul, neg_mul]
    rfl
  obtain ⟨hge1, hge2⟩ := gemini_foldl gen
    (fun j => νs.getD (2 * j + 1) 0 * inv.getD (2 * j + 1) 0 * evals.getD j 0 + νs.getD (2 * j) 0 * inv.getD (2 * j) 0 * l.getD j 0)
    (fun j => -1 * (νs.getD (2 * j + 1) 0 * inv.getD (2 * j + 1) 0 + νs.getD (2 * j) 0 * inv.getD (2 * j) 0))
    (fun j => evalPublic (ps.getD (j - 1) []) τ) (fun j => folds.getD (j - 1) 0) (List.range' 1 (us.length - 1)) hfoldj (0, stg.1)
  obtain ⟨h, hh⟩ : ∃ h, batchGemini folds evals l inv νs (0, stg.1) = h := ⟨_, rfl⟩
  have hgb := hh
  simp only [batchGemini, hevalsl] at hgb
  rw [hgb] at hge1 hge2
  -- the quotients
  have hquot := quotients_eval (ν := ν) (z := z) (o := (pos, r, evalPublic pos r)) (os := os) hposl hsizes
    (by
      intro p hp
      rw [← hos] at hp
      simp only [List.mem_cons, List.mem_flatMap, List.not_mem_nil, or_false] at hp
      rcases hp with rfl | rfl | ⟨j, -, rfl | rfl⟩ <;> rfl)
    (by
      intro p hp
      rw [← hos] at hp
      simp only [List.mem_cons, List.mem_flatMap, List.not_mem_nil, or_false] at hp
      rcases hp with rfl | rfl | ⟨j, hj, rfl | rfl⟩
      · simpa using hgood.pos 0 hD0
      · simpa using hgood.neg 0 hD0
      · exact hgood.pos j (by have := List.mem_range'_1.mp hj; omega)
      · exact hgood.neg j (by have := List.mem_range'_1.mp hj; omega)) τ
  rw [hQ, hW, ← hos, List.map_cons, List.map_cons, wsum, wsum, List.map_flatMap] at hquot
  simp only [List.map_cons, List.map_nil, one_mul, sub_neg_eq_add] at hquot
  have hpairs := wsum_pairs ν (fun j => (z - r ^ 2 ^ j)⁻¹ * (evalPublic (ps.getD (j - 1) []) τ - evalPublic (ps.getD (j - 1) []) (r ^ 2 ^ j)))
    (fun j => (z + r ^ 2 ^ j)⁻¹ * (evalPublic (ps.getD (j - 1) []) τ - evalPublic (ps.getD (j - 1) []) (-r ^ 2 ^ j))) 1 (us.length - 1)
  rw [show ν ^ (2 * 1) = ν * ν by ring] at hpairs
  rw [hpairs] at hquot
  have hsums : ((List.range' 1 (us.length - 1)).map fun j => νs.getD (2 * j + 1) 0 * inv.getD (2 * j + 1) 0 * evals.getD j 0
        + νs.getD (2 * j) 0 * inv.getD (2 * j) 0 * l.getD j 0).sum
      + ((List.range' 1 (us.length - 1)).map fun j => -1 * (νs.getD (2 * j + 1) 0 * inv.getD (2 * j + 1) 0
        + νs.getD (2 * j) 0 * inv.getD (2 * j) 0) * evalPublic (ps.getD (j - 1) []) τ).sum
      = -((List.range' 1 (us.length - 1)).map fun j =>
        ν ^ (2 * j) * ((z - r ^ 2 ^ j)⁻¹ * (evalPublic (ps.getD (j - 1) []) τ - evalPublic (ps.getD (j - 1) []) (r ^ 2 ^ j)))
        + ν ^ (2 * j + 1) * ((z + r ^ 2 ^ j)⁻¹ * (evalPublic (ps.getD (j - 1) []) τ - evalPublic (ps.getD (j - 1) []) (-r ^ 2 ^ j)))).sum := by
    rw [← List.sum_map_add, neg_sum_map]
    congr 1
    refine List.map_congr_left fun j hj => ?_
    have hj' := List.mem_range'_1.mp hj
    rw [hνj _ (by omega), hνj _ (by omega), (hinv j (by omega)).1, (hinv j (by omega)).2, hnegj j hj, hposj j hj]
    ring
  -- the check
  have hp0 : termsSum (h.2 ++ [(h.1 + l.getD 0 0 * inv.getD 0 0 + evals.getD 0 0 * ν * inv.getD 1 0, gen), (z, evalPublic W τ • gen)])
      = (τ * evalPublic W τ) • gen := by
    rw [termsSum_append, hge2, hge1, hstg1]
    simp only [termsSum, List.map_cons, List.map_nil, List.sum_cons, List.sum_nil, add_zero, smul_smul, ← add_smul]
    congr 1
    have hl0 := hl 0 hD0
    simp only [pow_zero, pow_one, List.getD_cons_zero] at hl0
    have hpe : evalPublic pos τ = evalPublic f τ + r⁻¹ * evalPublic g τ := by rw [← hpos, ev_add hgml, ev_smul]
    have hne : evalPublic neg τ = evalPublic f τ - r⁻¹ * evalPublic g τ := by rw [← hneg, ev_sub hgml, ev_smul]
    rw [hpe, hne] at hquot
    rw [← hun, ← hsh, hi0.1, hi0.2, hneg0, hl0, ← hA0p]
    linear_combination hsums - hquot
  have hmap1 : ((Col.precomputed ++ Col.witness).map fun c => (evalPublic (columns (2 ^ (k + 1)) table c) τ • gen,
      extension (pad (2 ^ (k + 1)) (table c)) us)) = Col.unshifted.map fun c =>
      (evalPublic (columns (2 ^ (k + 1)) table c) τ • gen, extension (pad (2 ^ (k + 1)) (table c)) us) := rfl
  have hmap2 : List.zipWith (fun c s => (evalPublic (columns (2 ^ (k + 1)) table c) τ • gen, extension (pad (2 ^ (k + 1)) (table s)) us))
      Col.toBeShifted Col.shifts = (Col.toBeShifted.zip Col.shifts).map fun p =>
      (evalPublic (columns (2 ^ (k + 1)) table p.1) τ • gen, extension (pad (2 ^ (k + 1)) (table p.2)) us) := rfl
  rw [← hsq] at hl1
  have hcommc : ∀ c, commitment crs (2 ^ (k + 1)) (table c) = evalPublic (columns (2 ^ (k + 1)) table c) τ • gen := congrFun hcomm
  simp only [shpleminiVerify, if_neg (show us.length ≠ 0 by omega), hfoldsl, hevalsl, ne_eq, not_true_eq_false, or_self, if_false, hr, hν,
    hz, hinve, hνse, hun, if_neg hr0, hsh, hcommc, hmap1, hstf, hmap2, hstg, hstg2, hl1, Plonk.ok_bind, hh]
  rw [show (∀ (l : List (F × G)), (l.map fun t => t.1 • t.2).sum = termsSum l) from fun _ => rfl, hp0]
  rw [hsrs.second]
  congr 1
  rw [decide_eq_true_eq]
  simp only [map_smul, LinearMap.smul_apply, map_neg, LinearMap.neg_apply, smul_smul]
  rw [smul_neg, smul_smul]
  exact (sub_eq_add_neg _ _).symm.trans (by rw [mul_comm, sub_self])

end Run

end Verif.Honk
