import Verif.Honk.ShpleminiFolds

/-!
# Lemmas: the run of the plain prover of the opening proof
-/

namespace Verif.Honk

open Plonk (evalPublic zipInto_length)

variable {F G : Type} [Field F] [DecidableEq F]

section Openings

omit [DecidableEq F] in
theorem squares_eq (r : F) (D : Nat) (hD : 0 < D) : squares r D = (List.range D).map fun j => r ^ 2 ^ j := by
  rw [squares, max_eq_left (by omega), ← List.range_map_iterate]
  refine List.map_congr_left fun j hj => ?_
  clear hD hj
  induction j with
  | zero => simp
  | succ j ih =>
    rw [Function.iterate_succ_apply', ih]
    rw [← pow_two, ← pow_mul, ← pow_succ]

/-- The polynomials, points and values that the prover goes through. -/
def pcsOpenings (r : F) (pos neg : List F) (ps : List (List F)) (D : Nat) : List (List F × F × F) :=
  (pos, r, evalPublic pos r) :: (neg, -r, evalPublic neg (-r)) ::
    (List.range' 1 (D - 1)).flatMap fun j =>
      [(ps.getD (j - 1) [], r ^ 2 ^ j, evalPublic (ps.getD (j - 1) []) (r ^ 2 ^ j)),
       (ps.getD (j - 1) [], -r ^ 2 ^ j, evalPublic (ps.getD (j - 1) []) (-r ^ 2 ^ j))]

omit [DecidableEq F] in
theorem openClaims_eq (r : F) (pos neg : List F) (polys ps : List (List F)) (D : Nat) (hD : 0 < D)
    (h : polys.take (D - 1) = ps.take (D - 1)) (hp : D - 1 ≤ ps.length) :
    openClaims evalPublic D pos neg polys r =
      ⟨pos, r, evalPublic pos r, false⟩ :: ⟨neg, -r, evalPublic neg (-r), false⟩ ::
        (List.range' 1 (D - 1)).map fun j =>
          ⟨ps.getD (j - 1) [], -r ^ 2 ^ j, evalPublic (ps.getD (j - 1) []) (-r ^ 2 ^ j), true⟩ := by
  have hpl : D - 1 ≤ polys.length := by
    have := congrArg List.length h
    simp only [List.length_take] at this
    omega
  rw [openClaims, squares_eq r D hD]
  congr 2
  refine List.ext_getElem (by simp; omega) fun j h1 h2 => ?_
  have hj : j < D - 1 := by simpa using h2
  have e : polys[j]'(by omega) = ps.getD j [] := by
    have := congrArg (fun l => l[j]?) h
    simp only [List.getElem?_take, if_pos hj] at this
    rw [List.getD, ← this, List.getElem?_eq_getElem (by omega), Option.getD_some]
  simp only [List.getElem_zipWith, List.getElem_tail, List.getElem_map, List.getElem_range, List.getElem_range', e]
  simp [Nat.add_comm]

omit [DecidableEq F] in
theorem openings_true (l : List Nat) (p : Nat → List F) (x : Nat → F) (v w : Nat → F) :
    openings (l.map fun j => (⟨p j, x j, v j, true⟩ : OpenClaim F F)) (l.map w) =
      l.flatMap fun j => [(p j, -x j, w j), (p j, x j, v j)] := by
  induction l with
  | nil => rfl
  | cons j l ih => simp [openings, ih]

omit [DecidableEq F] in
theorem openings_eq (r : F) (pos neg : List F) (polys ps : List (List F)) (D : Nat) (hD : 0 < D)
    (h : polys.take (D - 1) = ps.take (D - 1)) (hp : D - 1 ≤ ps.length) :
    openings (openClaims evalPublic D pos neg polys r) (posValues evalPublic (openClaims evalPublic D pos neg polys r)) =
      pcsOpenings r pos neg ps D := by
  rw [openClaims_eq r pos neg polys ps D hD h hp, pcsOpenings, posValues]
  simp only [List.filter_cons, Bool.false_eq_true, if_false, openings]
  rw [List.filter_map, List.filter_eq_self.mpr (by simp), List.map_map]
  have := openings_true (List.range' 1 (D - 1)) (fun j => ps.getD (j - 1) []) (fun j => -r ^ 2 ^ j)
    (fun j => evalPublic (ps.getD (j - 1) []) (-r ^ 2 ^ j)) (fun j => evalPublic (ps.getD (j - 1) []) (r ^ 2 ^ j))
  simp only [neg_neg] at this
  rw [← this]
  congr 3
  refine List.map_congr_left fun j _ => ?_
  simp

end Openings

/-! ## The two quotients -/

theorem quotient_length (ν : F) (os : List (List F × F × F)) (s : List F × F) :
    ((os.foldl (fun s o => (addScaled s.2 s.1 (factorRoots o.2.1 (subHead o.1 o.2.2)), s.2 * ν)) s).1).length = s.1.length := by
  induction os generalizing s with
  | nil => rfl
  | cons o os ih => exact (ih _).trans (addScaled_length _ _ _)

theorem quotient_eval (ν : F) (os : List (List F × F × F)) (s : List F × F) (h : ∀ o ∈ os, o.1.length ≤ s.1.length) (y : F) :
    evalPublic ((os.foldl (fun s o => (addScaled s.2 s.1 (factorRoots o.2.1 (subHead o.1 o.2.2)), s.2 * ν)) s).1) y =
      evalPublic s.1 y + wsum ν s.2 (os.map fun o => evalPublic (factorRoots o.2.1 (subHead o.1 o.2.2)) y) := by
  induction os generalizing s with
  | nil => simp [wsum]
  | cons o os ih =>
    refine (ih _ fun q hq => by rw [addScaled_length]; exact h q (by simp [hq])).trans ?_
    rw [ev_addScaled ((factorRoots_length _ _).trans (by rw [subHead_length]; exact h o (by simp))), List.map_cons, wsum]
    ring

omit [DecidableEq F] in
theorem partialQuotient_eval (ν z : F) (os : List (List F × F × F)) (s : List F × F) (h : ∀ o ∈ os, o.1 ≠ [] ∧ o.1.length ≤ s.1.length) (y : F) :
    evalPublic ((os.foldl (fun s o => (addScaled (-(s.2 * (z - o.2.1)⁻¹)) s.1 (subHead o.1 o.2.2), s.2 * ν)) s).1) y =
      evalPublic s.1 y - wsum ν s.2 (os.map fun o => (z - o.2.1)⁻¹ * (evalPublic o.1 y - o.2.2)) := by
  induction os generalizing s with
  | nil => simp [wsum]
  | cons o os ih =>
    refine (ih _ fun q hq => by rw [addScaled_length]; exact h q (by simp [hq])).trans ?_
    have ho := h o (by simp)
    rw [ev_addScaled (by rw [subHead_length]; exact ho.2), ev_subHead ho.1, List.map_cons, wsum]
    ring

omit [DecidableEq F] in
theorem partialQuotient_length (ν z : F) (os : List (List F × F × F)) (s : List F × F) :
    ((os.foldl (fun s o => (addScaled (-(s.2 * (z - o.2.1)⁻¹)) s.1 (subHead o.1 o.2.2), s.2 * ν)) s).1).length = s.1.length := by
  induction os generalizing s with
  | nil => rfl
  | cons o os ih => exact (ih _).trans (addScaled_length _ _ _)

theorem foldl_max_le {α : Type} (f : α → Nat) (n : Nat) (l : List α) (m : Nat) (hm : m ≤ n) (h : ∀ x ∈ l, f x ≤ n) :
    l.foldl (fun m x => max m (f x)) m ≤ n ∧ m ≤ l.foldl (fun m x => max m (f x)) m := by
  induction l generalizing m with
  | nil => exact ⟨hm, le_rfl⟩
  | cons x l ih =>
    obtain ⟨h1, h2⟩ := ih (max m (f x)) (max_le hm (h x (by simp))) fun y hy => h y (by simp [hy])
    exact ⟨h1, (le_max_left _ _).trans h2⟩

theorem size_eq {α : Type} (f : α → Nat) (n : Nat) (x : α) (l : List α) (hx : f x = n) (h : ∀ y ∈ l, f y ≤ n) :
    (x :: l).foldl (fun m x => max m (f x)) 0 = n := by
  obtain ⟨h1, h2⟩ := foldl_max_le f n l n le_rfl h
  rw [List.foldl_cons, Nat.zero_max, hx]
  exact le_antisymm h1 h2

theorem nextPowerOfTwo_pow (k : Nat) : nextPowerOfTwo (2 ^ k) = 2 ^ k := by
  rw [nextPowerOfTwo, Nat.clog_pow 2 k (by omega)]

/-- The sizes of the quotients. -/
theorem quotients_length {ν z : F} {k : Nat} {o : List F × F × F} {os : List (List F × F × F)} (ho : o.1.length = 2 ^ k)
    (hl : ∀ p ∈ o :: os, p.1 ≠ [] ∧ p.1.length ≤ 2 ^ k) :
    (batchedQuotient nextPowerOfTwo ν (o :: os)).length = 2 ^ k ∧
      (factorRoots z (partialQuotient ν z (batchedQuotient nextPowerOfTwo ν (o :: os)) (o :: os))).length ≤ 2 ^ k := by
  have hm : (o :: os).foldl (fun m (o : List F × F × F) => max m o.1.length) 0 = 2 ^ k :=
    size_eq (fun o : List F × F × F => o.1.length) (2 ^ k) o os ho fun p hp => (hl p (by simp [hp])).2
  have hq : (batchedQuotient nextPowerOfTwo ν (o :: os)).length = 2 ^ k := by
    rw [batchedQuotient, hm, nextPowerOfTwo_pow, quotient_length, List.length_replicate]
  refine ⟨hq, (factorRoots_length _ _).trans ?_⟩
  rw [partialQuotient, partialQuotient_length, hq]

/-- What the quotients of the prover are, if the values are right and `z` is none of the points: the quotient that is committed last
is the combination of the openings divided by `X - z`. -/
theorem quotients_eval {ν z : F} {k : Nat} {o : List F × F × F} {os : List (List F × F × F)} (ho : o.1.length = 2 ^ k)
    (hl : ∀ p ∈ o :: os, p.1 ≠ [] ∧ p.1.length ≤ 2 ^ k) (hv : ∀ p ∈ o :: os, evalPublic p.1 p.2.1 = p.2.2) (hz : ∀ p ∈ o :: os, z ≠ p.2.1)
    (y : F) :
    (y - z) * evalPublic (factorRoots z (partialQuotient ν z (batchedQuotient nextPowerOfTwo ν (o :: os)) (o :: os))) y =
      evalPublic (batchedQuotient nextPowerOfTwo ν (o :: os)) y
        - wsum ν 1 ((o :: os).map fun o => (z - o.2.1)⁻¹ * (evalPublic o.1 y - o.2.2)) := by
  have hm : (o :: os).foldl (fun m (o : List F × F × F) => max m o.1.length) 0 = 2 ^ k :=
    size_eq (fun o : List F × F × F => o.1.length) (2 ^ k) o os ho fun p hp => (hl p (by simp [hp])).2
  have hq := (quotients_length (ν := ν) (z := z) ho hl).1
  have hqe : ∀ y, evalPublic (batchedQuotient nextPowerOfTwo ν (o :: os)) y =
      wsum ν 1 ((o :: os).map fun o => evalPublic (factorRoots o.2.1 (subHead o.1 o.2.2)) y) := fun y => by
    rw [batchedQuotient, hm, nextPowerOfTwo_pow, quotient_eval _ _ _ fun p hp => by simpa using (hl p hp).2]
    simp only [ev_replicate, zero_add]
  have hp : ∀ y, evalPublic (partialQuotient ν z (batchedQuotient nextPowerOfTwo ν (o :: os)) (o :: os)) y =
      evalPublic (batchedQuotient nextPowerOfTwo ν (o :: os)) y
        - wsum ν 1 ((o :: os).map fun o => (z - o.2.1)⁻¹ * (evalPublic o.1 y - o.2.2)) := fun y => by
    rw [partialQuotient, partialQuotient_eval _ _ _ _ fun p hp => by simpa [hq] using hl p hp]
  rw [factorRoots_eval, hp]
  rw [hp, hqe, sub_eq_zero]
  refine wsum_congr ν 1 _ _ _ fun p hpm => ?_
  have h0 : evalPublic (subHead p.1 p.2.2) p.2.1 = 0 := by rw [ev_subHead (hl p hpm).1, hv p hpm, sub_self]
  have := factorRoots_eval h0 z
  rw [ev_subHead (hl p hpm).1] at this
  rw [← this, inv_mul_cancel_left₀ (sub_ne_zero.mpr (hz p hpm))]

/-! ## Commitments -/

section

variable [AddCommGroup G] [Module F G]

omit [DecidableEq F] in
theorem msm_take (crs : List G) (l : List F) : Rep3.Point.msm crs l = Rep3.Point.msm (crs.take l.length) l := by
  rw [Rep3.Point.msm, Rep3.Point.msm]
  congr 1
  induction l generalizing crs with
  | nil => simp
  | cons a l ih =>
    cases crs with
    | nil => rfl
    | cons c crs => rw [List.length_cons, List.take_succ_cons, List.zipWith_cons_cons, List.zipWith_cons_cons, ih]

theorem plain_commit {τ : F} {gen : G} {crs : List G} (hcrs : ∀ i P, crs[i]? = some P → P = τ ^ i • gen) {p : List F}
    (hp : p.length ≤ crs.length) : (plainPcs (F := F) (G := G)).commit crs p = .ok (evalPublic p τ • gen) := by
  have := Plonk.msm_powers hcrs 0 p (by omega)
  rw [List.drop_zero, pow_zero, one_mul, ← msm_take] at this
  show (if crs.length < p.length then _ else _) = _
  rw [if_neg (by omega), this, Plonk.evalPublic_eq]

theorem plain_commits {τ : F} {gen : G} {crs : List G} (hcrs : ∀ i P, crs[i]? = some P → P = τ ^ i • gen) {ps : List (List F)}
    (hp : ∀ p ∈ ps, p.length ≤ crs.length) :
    ps.mapM ((plainPcs (F := F) (G := G)).commit crs) = .ok (ps.map fun p => evalPublic p τ • gen) := by
  induction ps with
  | nil => rfl
  | cons p ps ih =>
    rw [List.mapM_cons, plain_commit hcrs (hp p (by simp)), ih fun q hq => hp q (by simp [hq])]
    rfl

/-! ## The run -/

omit [AddCommGroup G] [Module F G] in
theorem computeBatched_length [AddCommGroup G] [Module F G] (ρ : F) (n : Nat) (pub wit shift : List (List F)) :
    (computeBatchedPolys (plainPcs (F := F) (G := G)) ρ n pub wit shift).1.length = n ∧
      (computeBatchedPolys (plainPcs (F := F) (G := G)) ρ n pub wit shift).2.length = n := by
  simp [computeBatchedPolys, batchPolys_length]

/-- What an honest prover sends. -/
theorem shpleminiProve_spec {τ : F} {gen : G} {crs : List G} (hcrs : ∀ i P, crs[i]? = some P → P = τ ^ i • gen)
    {ch : PcsChallenges F G} {logN : Nat} {us : List F} (h2 : 2 ≤ logN) (hD : logN ≤ us.length) (hlen : 2 ^ logN ≤ crs.length)
    {pub wit shift : List (List F)} {f g : List F} (hb : computeBatchedPolys (plainPcs (F := F) (G := G)) ch.rho (2 ^ logN) pub wit shift = (f, g))
    {folds : List G}
    (hfolds : ((fullFolds us (logN - 1) (Plonk.zipInto (· + ·) f g.tail)).take (us.length - 1)).map (fun p => evalPublic p τ • gen) = folds)
    {r : F} (hr : ch.r folds = r) {pos neg : List F}
    (hpos : Plonk.zipInto (· + ·) f (g.map fun x => r⁻¹ • x) = pos) (hneg : Plonk.zipInto (· - ·) f (g.map fun x => r⁻¹ • x) = neg)
    {os : List (List F × F × F)} (hos : pcsOpenings r pos neg (fullFolds us (logN - 1) (Plonk.zipInto (· + ·) f g.tail)) us.length = os)
    {evals : List F}
    (hevals : evalPublic neg (-r) :: (List.range' 1 (us.length - 1)).map (fun j =>
      evalPublic ((fullFolds us (logN - 1) (Plonk.zipInto (· + ·) f g.tail)).getD (j - 1) []) (-r ^ 2 ^ j)) = evals)
    {ν : F} (hν : ch.nu folds evals = ν) {Q : List F} (hQ : batchedQuotient nextPowerOfTwo ν os = Q) {z : F}
    (hz : ch.z folds evals (evalPublic Q τ • gen) = z)
    (hQl : Q.length ≤ crs.length) (hWl : (factorRoots z (partialQuotient ν z Q os)).length ≤ crs.length) :
    shpleminiProve plainPcs ch crs logN us pub wit shift =
      if r = 0 then .error (.panic "called `Option::unwrap()` on a `None` value")
      else .ok ⟨folds, evals, evalPublic Q τ • gen, evalPublic (factorRoots z (partialQuotient ν z Q os)) τ • gen⟩ := by
  have hl := computeBatched_length (G := G) ch.rho (2 ^ logN) pub wit shift
  rw [hb] at hl
  obtain ⟨polys, hp1, hp2⟩ := computeFoldPolynomials_ok (a := Plonk.zipInto (· + ·) f g.tail) h2 hD
  have hD0 : 0 < us.length := by omega
  have hcommit : (polys.take (us.length - 1)).mapM ((plainPcs (F := F) (G := G)).commit crs) = .ok folds := by
    rw [hp2, plain_commits hcrs, hfolds]
    intro p hp
    have := (fullFolds_sizes us (logN - 1) _ p (List.mem_of_mem_take hp)).2
    rw [show logN - 1 + 1 = logN by omega] at this
    omega
  have e1 : (plainPcs (F := F) (G := G)).evalPoly = evalPublic := rfl
  have e2 : (plainPcs (F := F) (G := G)).roundUp = nextPowerOfTwo := rfl
  have e3 : ∀ l, (plainPcs (F := F) (G := G)).openPoints l = .ok l := fun _ => rfl
  have e4 : ∀ l, (plainPcs (F := F) (G := G)).openMany l = .ok l := fun _ => rfl
  have e5 : ∀ l, (plainPcs (F := F) (G := G)).openPoint l = .ok l := fun _ => rfl
  have hop := openings_eq r pos neg polys _ us.length hD0 hp2 (by rw [fullFolds_length]; omega)
  have hoc := openClaims_eq r pos neg polys _ us.length hD0 hp2 (by rw [fullFolds_length]; omega)
  have hev : (((openClaims evalPublic us.length pos neg polys r).drop 1).take us.length).map (·.value) = evals := by
    rw [hoc, ← hevals, List.drop_succ_cons, List.drop_zero, List.take_of_length_le (by simp; omega)]
    simp [Function.comp_def]
  by_cases hr0 : r = 0
  · simp only [shpleminiProve, hb, hp1, PcsDriver.lift, pure_bind, hcommit, Plonk.ok_bind, e3, hr, posNeg, if_pos hr0]
    rfl
  · simp only [shpleminiProve, hb, hp1, PcsDriver.lift, pure_bind, hcommit, Plonk.ok_bind, e3, hr, posNeg, if_neg hr0, hpos, hneg, e1, e2,
      hev, e4, hop, hos, hν, hQ, plain_commit hcrs hQl, e5, hz, plain_commit hcrs hWl]
    rfl

end

end Verif.Honk
