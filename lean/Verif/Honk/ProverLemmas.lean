import Verif.Honk.Sums

/-! # What the prover computes -/

namespace Verif.Honk

open Polynomial

variable {F : Type} [Field F]

/-! ## Multilinear extensions -/

theorem extension_cons (f : Nat → F) (u : F) (us : List F) :
    extension f (u :: us) = extension (fun l => f (2 * l) + (f (2 * l + 1) - f (2 * l)) * u) us := by
  rw [extension, extension, List.length_cons, pow_succ', sum_range_two_mul]
  refine Finset.sum_congr rfl fun l _ => ?_
  rw [Finset.prod_range_succ', Finset.prod_range_succ']
  have h0 : (2 * l).testBit 0 = false := by simp [Nat.testBit_zero]
  have h1 : (2 * l + 1).testBit 0 = true := by simp [Nat.testBit_zero]
  have h2 : ∀ j, (2 * l).testBit (j + 1) = l.testBit j := fun j => by rw [Nat.testBit_succ]; congr 1; omega
  have h3 : ∀ j, (2 * l + 1).testBit (j + 1) = l.testBit j := fun j => by rw [Nat.testBit_succ]; congr 1; omega
  simp only [h0, h1, h2, h3, List.getD_cons_succ, List.getD_cons_zero, if_true, Bool.false_eq_true, if_false]
  ring

theorem foldAll_eq (us : List F) (T : Nat → Col → F) (l : Nat) (c : Col) :
    foldAll us T l c = extension (fun i => T (i + 2 ^ us.length * l) c) us := by
  induction us generalizing T with
  | nil => simp [foldAll, extension]
  | cons u us ih =>
    show foldAll us (foldRows u T) l c = _
    rw [ih, extension_cons]
    congr 1
    funext i
    simp only [foldRows, List.length_cons]
    have e1 : 2 * (i + 2 ^ us.length * l) = 2 * i + 2 ^ (us.length + 1) * l := by ring
    have e2 : 2 * i + 2 ^ (us.length + 1) * l + 1 = 2 * i + 1 + 2 ^ (us.length + 1) * l := by ring
    rw [e1, e2]

theorem foldAll_zero (us : List F) (T : Nat → Col → F) (c : Col) :
    foldAll us T 0 c = extension (fun i => T i c) us := by
  rw [foldAll_eq]; simp

/-! ## The gate separator -/

theorem weight_concat_lt (bs : List F) (b : F) (i : Nat) (hi : i < 2 ^ bs.length) : weight (bs ++ [b]) i = weight bs i := by
  induction bs generalizing i with
  | nil => have : i = 0 := by simpa using hi
           subst this; simp [weight]
  | cons c bs ih =>
    simp only [List.cons_append, weight]
    rw [ih]
    rw [List.length_cons, pow_succ] at hi
    omega

theorem weight_concat_ge (bs : List F) (b : F) (i : Nat) (hi : i < 2 ^ bs.length) :
    weight (bs ++ [b]) (2 ^ bs.length + i) = weight bs i * b := by
  induction bs generalizing i with
  | nil => have : i = 0 := by simpa using hi
           subst this; simp [weight]
  | cons c bs ih =>
    rw [List.length_cons, pow_succ] at hi
    have e1 : (2 ^ (bs.length + 1) + i) % 2 = i % 2 := by rw [pow_succ]; omega
    have e2 : (2 ^ (bs.length + 1) + i) / 2 = 2 ^ bs.length + i / 2 := by rw [pow_succ]; omega
    simp only [List.cons_append, weight, List.length_cons, e1, e2]
    rw [ih _ (by omega), mul_assoc]

theorem weights_concat (bs : List F) (b : F) :
    (List.range (2 ^ (bs ++ [b]).length)).map (weight (bs ++ [b]))
      = (List.range (2 ^ bs.length)).map (weight bs) ++ (List.range (2 ^ bs.length)).map (fun i => weight bs i * b) := by
  rw [List.length_append, List.length_singleton, pow_succ, mul_two, List.range_add, List.map_append, List.map_map]
  congr 1
  · exact List.map_congr_left fun i hi => weight_concat_lt bs b i (List.mem_range.1 hi)
  · exact List.map_congr_left fun i hi => weight_concat_ge bs b i (List.mem_range.1 hi)

theorem betaProducts_foldl (bs pre : List F) :
    bs.foldl (fun l β => l ++ β :: l.tail.map (· * β)) ((List.range (2 ^ pre.length)).map (weight pre))
      = (List.range (2 ^ (pre ++ bs).length)).map (weight (pre ++ bs)) := by
  induction bs generalizing pre with
  | nil => simp
  | cons b bs ih =>
    have h : (List.range (2 ^ pre.length)).map (weight pre) ++ b :: ((List.range (2 ^ pre.length)).map (weight pre)).tail.map (· * b)
        = (List.range (2 ^ (pre ++ [b]).length)).map (weight (pre ++ [b])) := by
      rw [weights_concat]
      congr 1
      obtain ⟨m, hm⟩ : ∃ m, 2 ^ pre.length = m + 1 := ⟨2 ^ pre.length - 1, by have := Nat.two_pow_pos pre.length; omega⟩
      rw [hm, List.range_succ_eq_map]
      simp [weight_zero, List.map_map, Function.comp_def]
    rw [List.foldl_cons, h, ih]
    simp

theorem betaProducts_eq (betas : List F) (d : Nat) (h : d ≤ betas.length) :
    Separator.betaProducts betas d = (List.range (2 ^ d)).map (weight (betas.take d)) := by
  have := betaProducts_foldl (betas.take d) []
  simp only [List.length_nil, pow_zero, List.nil_append, List.length_take, Nat.min_eq_left h] at this
  have e : (List.range 1).map (weight ([] : List F)) = [1] := by simp [weight]
  rw [e] at this
  simp only [Separator.betaProducts, this]
  simp

theorem weight_take (betas : List F) (d i : Nat) (hi : i < 2 ^ d) : weight (betas.take d) i = weight betas i := by
  induction d generalizing betas i with
  | zero => have : i = 0 := by simpa using hi
            subst this; simp [weight_zero]
  | succ d ih =>
    cases betas with
    | nil => simp
    | cons b bs =>
      simp only [List.take_succ_cons, weight]
      rw [ih]
      rw [pow_succ] at hi
      omega

theorem index_ok {α : Type} (l : List α) (i : Nat) (d : α) (h : i < l.length) : index l i = .ok (l.getD i d) := by
  simp [index, List.getD, List.getElem?_eq_getElem h]

/-! ## One round -/

variable [DecidableEq F]

/-- The lists hold the table. -/
structure Holds (polys : Col → List F) (len : Nat) (T : Nat → Col → F) : Prop where
  length : ∀ c, (polys c).length = len
  value : ∀ c l, (polys c).getD l 0 = T l c

theorem foldlM_sum {σ : Type} [AddCommMonoid σ] (step : σ → Nat → Except Err σ) (g : Nat → σ) (n : Nat) (a : σ)
    (h : ∀ k < n, ∀ acc, step acc k = .ok (acc + g k)) :
    (List.range n).foldlM step a = .ok (a + ∑ k ∈ Finset.range n, g k) := by
  induction n with
  | zero => simp; rfl
  | succ n ih =>
    rw [List.range_succ, List.foldlM_append, ih fun k hk => h k (by omega)]
    have e : ∀ x, (Except.ok x : Except Err σ) >>= (fun y => [n].foldlM step y) = step x n := by
      intro x
      show [n].foldlM step x = _
      simp
    rw [e, h n (by omega), Finset.sum_range_succ, ← add_assoc]

/-- The values on the edge. -/
def edge (T : Nat → Col → F) (k : Nat) : Col → Univariate F 7 := fun c i =>
  T (2 * k) c + (T (2 * k + 1) c - T (2 * k) c) * ((i : Nat) : F)

theorem extendEdges_ok {polys : Col → List F} {len : Nat} {T : Nat → Col → F} (h : Holds polys len T) (k : Nat) (hk : 2 * k + 2 ≤ len)
    (hd : Distinct F 8) : extendEdges polys (2 * k) = .ok (edge T k) := by
  rw [extendEdges, if_pos]
  · congr 1
    funext c i
    have e : (![(polys c).getD (2 * k) 0, (polys c).getD (2 * k + 1) 0] : Univariate F 2)
        = Univariate.ofPoly 2 (linePoly (T (2 * k)) (T (2 * k + 1)) c) := by
      funext j
      rw [h.value, h.value]
      fin_cases j <;> simp [Univariate.ofPoly, linePoly]
    rw [e, Univariate.extendFrom_ofPoly 7 (fun i hi j hj => hd i (by simp at hi; omega) j (by simp at hj; omega))]
    · simp [Univariate.ofPoly, linePoly_eval, edge]
    · refine lt_of_le_of_lt (b := 1) ?_ (by omega)
      simp only [linePoly]; compute_degree
  · simp [h.length, hk]

/-- What one edge adds. -/
def edgeTerm (p : Params F) (w : F) (T : Nat → Col → F) (k : Nat) : Acc F := fun s i =>
  if s.rel.skip (edge T k) then 0 else contribution p (edge T k) w s (i.castLE s.len_le)

theorem accumulateRelations_eq (p : Params F) (acc : Acc F) (T : Nat → Col → F) (k : Nat) (w : F) :
    accumulateRelations p acc (edge T k) w = acc + edgeTerm p w T k := by
  funext s i
  simp only [accumulateRelations, edgeTerm, Pi.add_apply]
  split_ifs <;> simp

/-- The accumulators of a round. -/
def roundAcc (p : Params F) (w : Nat → F) (T : Nat → Col → F) (n : Nat) : Acc F := ∑ k ∈ Finset.range n, edgeTerm p (w k) T k

/-- The univariate of a round in terms of the accumulators. -/
def roundUnivariate (alphas : List F) (β c : F) (acc : Acc F) : Univariate F 8 :=
  (Subrel.all.map fun s =>
    let extended := Univariate.extendFrom 8 (fun i => acc s i * scaleFactor 1 alphas s)
    if s.independent then extended * Univariate.extendFrom 8 ![1, β] * Univariate.const c else extended).sum

theorem batchOverRelations_ok (acc : Acc F) (alphas : List F) (ha : alphas.length = 27) (sep : Separator F)
    (hs : sep.idx < sep.betas.length) :
    batchOverRelations 8 acc alphas sep = .ok (roundUnivariate alphas (sep.betas.getD sep.idx 0) sep.partialResult acc) := by
  rw [batchOverRelations, if_pos ha, extendAndBatch, Separator.currentElement, index_ok _ _ 0 hs]
  rfl

theorem computeUnivariate_ok (p : Params F) (alphas : List F) (ha : alphas.length = 27) (sep : Separator F)
    (hs : sep.idx < sep.betas.length) (hd : Distinct F 8) {polys : Col → List F} {len : Nat} {T : Nat → Col → F} (h : Holds polys len T)
    (n : Nat) (hn : 2 * n ≤ len) (w : Nat → F) (hw : ∀ k < n, index sep.products (k * sep.periodicity) = .ok (w k)) :
    computeUnivariate 8 p sep alphas polys (2 * n)
      = .ok (roundUnivariate alphas (sep.betas.getD sep.idx 0) sep.partialResult (roundAcc p w T n)) := by
  rw [computeUnivariate, show (2 * n + 1) / 2 = n from by omega]
  have := foldlM_sum (edgeStep p sep polys) (fun k => edgeTerm p (w k) T k) n (fun _ _ => 0) (fun k hk acc => by
    rw [edgeStep, extendEdges_ok h k (by omega) hd]
    have e : (2 * k) >>> 1 = k := by rw [Nat.shiftRight_eq_div_pow]; omega
    rw [e, hw k hk]
    show Except.ok _ = _
    rw [accumulateRelations_eq])
  rw [this]
  show batchOverRelations 8 _ alphas sep = _
  rw [batchOverRelations_ok _ _ ha _ hs]
  congr 2
  rw [roundAcc]
  exact zero_add _

theorem computeVirtualContribution_ok (p : Params F) (alphas : List F) (ha : alphas.length = 27) (sep : Separator F)
    (hs : sep.idx < sep.betas.length) (hd : Distinct F 8) {polys : Col → List F} {len : Nat} {T : Nat → Col → F} (h : Holds polys len T)
    (hn : 2 ≤ len) :
    computeVirtualContribution p sep alphas polys
      = .ok (roundUnivariate alphas (sep.betas.getD sep.idx 0) sep.partialResult (roundAcc p (fun _ => 1) T 1)) := by
  rw [computeVirtualContribution, extendEdges_ok (k := 0) h (by omega) hd]
  show batchOverRelations 8 _ alphas sep = _
  rw [batchOverRelations_ok _ _ ha _ hs, accumulateRelations_eq]
  congr 2
  rw [roundAcc, Finset.sum_range_one]
  exact zero_add _

/-! ## What is skipped -/

theorem isZero_ends {T : Nat → Col → F} {k : Nat} {c : Col} (h : (edge T k c).isZero = true) : T (2 * k) c = 0 ∧ T (2 * k + 1) c = 0 := by
  simp only [Univariate.isZero, decide_eq_true_eq] at h
  have h0 := h 0
  have h1 := h 1
  simp [edge] at h0 h1
  exact ⟨h0, h1⟩

theorem edgeTerm_eq (p : Params F) (w : F) (T : Nat → Col → F) (k : Nat) (hu : SkipsNothing p (T (2 * k)) (T (2 * k + 1)))
    (s : Subrel) (i : Fin s.len) :
    edgeTerm p w T k s i = (if s.independent then w else 1)
      * s.value F p (fun c => T (2 * k) c + (T (2 * k + 1) c - T (2 * k) c) * ((i : Nat) : F)) := by
  rw [edgeTerm]
  by_cases h : s.rel.skip (edge T k) = true
  · rw [if_pos h, eq_comm]
    refine mul_eq_zero_of_right _ ?_
    have sel : ∀ c, (edge T k c).isZero = true → T (2 * k) c + (T (2 * k + 1) c - T (2 * k) c) * ((i : Nat) : F) = 0 := by
      intro c hc
      obtain ⟨h0, h1⟩ := isZero_ends hc
      simp [h0, h1]
    have perm : (edge T k .zPerm - edge T k .zPermShift).isZero = true →
        T (2 * k) .zPerm = T (2 * k) .zPermShift ∧ T (2 * k + 1) .zPerm = T (2 * k + 1) .zPermShift := by
      intro h
      simp only [Univariate.isZero, decide_eq_true_eq] at h
      have h0 := h 0
      have h1 := h 1
      simp [edge, sub_eq_zero] at h0 h1
      exact ⟨h0, h1⟩
    cases s
    case perm0 => exact hu.perm (perm h).1 (perm h).2 _ _ (by simp)
    case perm1 => exact hu.perm (perm h).1 (perm h).2 _ _ (by simp)
    case lookup0 =>
      obtain ⟨h1, h2⟩ := Bool.and_eq_true_iff.1 h
      exact hu.lookup (isZero_ends h1).1 (isZero_ends h1).2 (isZero_ends h2).1 (isZero_ends h2).2 _ _ (by simp)
    case lookup1 =>
      obtain ⟨h1, h2⟩ := Bool.and_eq_true_iff.1 h
      exact hu.lookup (isZero_ends h1).1 (isZero_ends h1).2 (isZero_ends h2).1 (isZero_ends h2).2 _ _ (by simp)
    case lookup2 =>
      obtain ⟨h1, h2⟩ := Bool.and_eq_true_iff.1 h
      exact hu.lookup (isZero_ends h1).1 (isZero_ends h1).2 (isZero_ends h2).1 (isZero_ends h2).2 _ _ (by simp)
    all_goals
      have := sel _ h
      simp [Subrel.value, this]
  · rw [if_neg h, contribution_eq]
    rfl

theorem acc_apply (g : Nat → Acc F) (n : Nat) (s : Subrel) (i : Fin s.len) :
    (∑ k ∈ Finset.range n, g k) s i = ∑ k ∈ Finset.range n, g k s i := by
  rw [Finset.sum_apply, Finset.sum_apply]

/-- The univariate of a round whose accumulators hold the sums over the edges. -/
theorem roundUnivariate_of_acc (p : Params F) (alphas : List F) (β c : F) (bs : List F) (m n : Nat) (hn : n ≤ 2 ^ m) (T : Nat → Col → F)
    (hT : ZeroFrom (2 * n) T) (hd : Distinct F 8) (acc : Acc F)
    (ha : ∀ s i, acc s i = ∑ k ∈ Finset.range n, (if s.independent then weight bs k else 1)
      * s.value F p (fun c => T (2 * k) c + (T (2 * k + 1) c - T (2 * k) c) * ((i : Nat) : F))) :
    roundUnivariate alphas β c acc = Univariate.ofPoly 8 (roundPoly (scaleFactor 1 alphas) p m β bs c T) := by
  have hacc : ∀ s : Subrel, (fun i => acc s i * scaleFactor 1 alphas s)
      = Univariate.ofPoly s.len (∑ k ∈ Finset.range n,
        C ((if s.independent then weight bs k else 1) * scaleFactor 1 alphas s) * s.value F p.const (linePoly (T (2 * k)) (T (2 * k + 1)))) := by
    intro s
    funext i
    rw [ha, Univariate.ofPoly, eval_finsetSum, Finset.sum_mul]
    refine Finset.sum_congr rfl fun k hk => ?_
    rw [eval_mul, eval_C, value_eval]
    simp only [linePoly_eval]
    ring
  have hpow : (![1, β] : Univariate F 2) = Univariate.ofPoly 2 (1 + X * C (β - 1)) := by
    funext j; fin_cases j <;> simp [Univariate.ofPoly]
  have hd' : ∀ m ≤ 8, Distinct F (max m 8) := fun m hm i hi j hj =>
    hd i (by rwa [max_eq_right hm] at hi) j (by rwa [max_eq_right hm] at hj)
  rw [roundPoly_short _ _ _ n hn _ _ _ _ hT]
  funext i
  rw [roundUnivariate]
  simp only [hacc, hpow]
  rw [Univariate.ofPoly, eval_finsetSum]
  simp only [batchedPoly_eval, batched]
  rw [Univariate.extendFrom_ofPoly (m := 2) 8 (hd' 2 (by omega)) _ (by
    refine lt_of_le_of_lt (b := 1) ?_ (by omega); compute_degree)]
  have hs : ∀ s : Subrel, Univariate.extendFrom 8 (Univariate.ofPoly s.len (∑ k ∈ Finset.range n,
        C ((if s.independent then weight bs k else 1) * scaleFactor 1 alphas s) * s.value F p.const (linePoly (T (2 * k)) (T (2 * k + 1)))))
      = Univariate.ofPoly 8 (∑ k ∈ Finset.range n,
        C ((if s.independent then weight bs k else 1) * scaleFactor 1 alphas s) * s.value F p.const (linePoly (T (2 * k)) (T (2 * k + 1)))) := by
    intro s
    refine Univariate.extendFrom_ofPoly _ (hd' _ (by have := s.len_pos; omega)) _ ?_
    refine lt_of_le_of_lt (b := s.len - 1) ?_ (by have := s.len_pos; omega)
    refine natDegree_sum_le_of_forall_le _ _ fun k _ => ?_
    exact (natDegree_C_mul_le _ _).trans (value_natDegree p _ _ s)
  simp only [hs]
  have hl : ∀ (l : List Subrel) (G : Subrel → Univariate F 8), (l.map G).sum i = (l.map fun s => G s i).sum := by
    intro l G
    induction l with
    | nil => rfl
    | cons a l ih => simp [ih]
  rw [hl]
  have hsum : ∀ (l : List Subrel) (G : Nat → Subrel → F), ∑ k ∈ Finset.range n, (l.map fun s => G k s).sum
      = (l.map fun s => ∑ k ∈ Finset.range n, G k s).sum := by
    intro l G
    induction l with
    | nil => simp
    | cons a l ih => simp [Finset.sum_add_distrib, ih]
  rw [hsum]
  congr 1
  refine List.map_congr_left fun s _ => ?_
  split_ifs with hi
  · simp only [Pi.mul_apply, Univariate.ofPoly, eval_finsetSum, Finset.sum_mul]
    refine Finset.sum_congr rfl fun k _ => ?_
    simp only [eval_mul, eval_C, value_eval, linePoly_eval, eval_add, eval_one, eval_X]
    ring
  · simp only [Univariate.ofPoly, eval_finsetSum]
    refine Finset.sum_congr rfl fun k _ => ?_
    simp only [eval_mul, eval_C, value_eval, linePoly_eval]
    ring

theorem roundUnivariate_eq (p : Params F) (alphas : List F) (β c : F) (bs : List F) (m n : Nat) (hn : n ≤ 2 ^ m) (T : Nat → Col → F)
    (hT : ZeroFrom (2 * n) T) (w : Nat → F) (hw : ∀ k < n, w k = weight bs k) (hd : Distinct F 8)
    (hu : ∀ k < n, SkipsNothing p (T (2 * k)) (T (2 * k + 1))) :
    roundUnivariate alphas β c (roundAcc p w T n)
      = Univariate.ofPoly 8 (roundPoly (scaleFactor 1 alphas) p m β bs c T) := by
  refine roundUnivariate_of_acc p alphas β c bs m n hn T hT hd _ fun s i => ?_
  rw [roundAcc, acc_apply]
  refine Finset.sum_congr rfl fun k hk => ?_
  rw [edgeTerm_eq p _ T k (hu k (Finset.mem_range.1 hk)), hw k (Finset.mem_range.1 hk)]

end Verif.Honk
