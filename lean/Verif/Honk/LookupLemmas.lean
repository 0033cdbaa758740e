import Verif.Honk.Lookup
import Verif.Honk.Cycles
import Verif.Spec.HonkLookup
import Mathlib.Algebra.BigOperators.Field

/-!
# The lookup argument
-/

namespace Verif.Honk

open Polynomial Finset

variable {F : Type} [Field F] [DecidableEq F]

/-- The fingerprint of an entry. -/
def comb (β : F) (x : F × F × F × F) : F := x.1 + x.2.1 * β + x.2.2.1 * β ^ 2 + x.2.2.2 * β ^ 3

omit [DecidableEq F] in
theorem readTerm_eq (p : Params F) (table : Col → Nat → F) (i : Nat) :
    readTerm p (fun c => table c i) = comb p.beta (lookedUp table i) + p.gamma := rfl

omit [DecidableEq F] in
theorem writeTerm_eq (p : Params F) (table : Col → Nat → F) (i : Nat) :
    writeTerm p (fun c => table c i) = comb p.beta (entry table i) + p.gamma := rfl

omit [DecidableEq F] in
theorem computeReadTerm_eq (p : Params F) (table : Col → Nat → F) (i : Nat) :
    computeReadTerm p.beta p.gamma (fun c => table c i) = comb p.beta (lookedUp table i) + p.gamma := by
  simp only [computeReadTerm, comb, lookedUp]; ring

omit [DecidableEq F] in
theorem computeWriteTerm_eq (p : Params F) (table : Col → Nat → F) (i : Nat) :
    computeWriteTerm p.beta p.gamma (fun c => table c i) = comb p.beta (entry table i) + p.gamma := by
  simp only [computeWriteTerm, comb, entry]; ring

omit [DecidableEq F] in
theorem lookup0_eq (p : Params F) (table : Col → Nat → F) (i : Nat) : Subrel.lookup0.value F p (fun c => table c i) =
    (comb p.beta (lookedUp table i) + p.gamma) * (comb p.beta (entry table i) + p.gamma) * table .lookupInverses i -
      (table .lookupReadTags i + table .qLookup i - table .lookupReadTags i * table .qLookup i) := rfl

omit [DecidableEq F] in
theorem lookup1_eq (p : Params F) (table : Col → Nat → F) (i : Nat) : Subrel.lookup1.value F p (fun c => table c i) =
    table .qLookup i * ((comb p.beta (entry table i) + p.gamma) * table .lookupInverses i) -
      table .lookupReadCounts i * ((comb p.beta (lookedUp table i) + p.gamma) * table .lookupInverses i) := rfl

omit [DecidableEq F] in
theorem lookup2_eq (p : Params F) (table : Col → Nat → F) (i : Nat) : Subrel.lookup2.value F p (fun c => table c i) =
    table .lookupReadTags i * (table .lookupReadTags i - 1) := rfl

/-! ## Counting -/

omit [DecidableEq F] in
theorem reads_fold {n : Nat} (l : List Nat) {st st' : Reads F} (h : l.foldlM (readRow n) st = .ok st') :
    (∀ i ∈ l, i < n) ∧ (∀ i, st'.counts i = st.counts i + (l.count i : F)) ∧
      ∀ i, st'.tags i = if i ∈ l then 1 else st.tags i := by
  induction l generalizing st with
  | nil => cases h; simp
  | cons k l ih =>
    rw [List.foldlM_cons] at h
    by_cases hk : k < n
    swap
    · rw [readRow, if_neg hk] at h; cases h
    rw [readRow, if_pos hk] at h
    obtain ⟨h1, h2, h3⟩ := ih h
    dsimp only at h2 h3
    refine ⟨?_, ?_, ?_⟩
    · intro i hi
      rcases List.mem_cons.1 hi with rfl | hi
      · exact hk
      · exact h1 i hi
    · intro i
      rw [h2]
      by_cases hik : i = k
      · subst hik
        rw [Function.update_self, List.count_cons_self]; push_cast; ring
      · rw [Function.update_of_ne hik, List.count_cons_of_ne (Ne.symm hik)]
    · intro i
      rw [h3]
      by_cases hi : i ∈ l
      · rw [if_pos hi, if_pos (List.mem_cons_of_mem _ hi)]
      · rw [if_neg hi]
        by_cases hik : i = k
        · subst hik; rw [Function.update_self, if_pos (by simp)]
        · rw [Function.update_of_ne hik, if_neg (by simp [hik, hi])]

/-- The sum over a list is the sum over the rows with the counts. -/
theorem sum_count {n : Nat} (l : List Nat) (hl : ∀ i ∈ l, i < n) (f : Nat → F) :
    (l.map f).sum = ∑ i ∈ range n, (l.count i : F) * f i := by
  induction l with
  | nil => simp
  | cons k l ih =>
    rw [List.map_cons, List.sum_cons, ih fun i hi => hl i (List.mem_cons_of_mem _ hi)]
    have hk : k ∈ range n := mem_range.2 (hl k (by simp))
    rw [← Finset.add_sum_erase _ _ hk, ← Finset.add_sum_erase (range n) _ hk, List.count_cons_self]
    have : ∀ i ∈ (range n).erase k, ((k :: l).count i : F) * f i = (l.count i : F) * f i := by
      intro i hi
      rw [List.count_cons_of_ne (Ne.symm (Finset.ne_of_mem_erase hi))]
    rw [Finset.sum_congr rfl this]
    push_cast
    ring

/-- Completeness of the lookup argument. -/
theorem lookup_complete {toNat : F → Nat} {tables : List (LookupTable F)} {n : Nat} {r : Reads F}
    (hr : readCounts toNat tables n = .ok r) {p : Params F} {table : Col → Nat → F}
    (hcounts : table .lookupReadCounts = r.counts) (htags : table .lookupReadTags = r.tags)
    (hinv : table .lookupInverses = lookupInverses p.beta p.gamma table)
    (hq : ∀ i < n, table .qLookup i = 0 ∨ table .qLookup i = 1)
    (hreads : ∀ places, readPlaces toNat 0 tables = .ok places →
      (((List.range n).filter fun i => table .qLookup i = 1).map (lookedUp table)).Perm (places.map (entry table)))
    (hden : ∀ i < n, table .qLookup i = 1 ∨ table .lookupReadTags i = 1 →
      comb p.beta (lookedUp table i) + p.gamma ≠ 0 ∧ comb p.beta (entry table i) + p.gamma ≠ 0) :
    LookupRelations p n table := by
  rw [readCounts] at hr
  cases hp : readPlaces toNat 0 tables with
  | error e => rw [hp] at hr; cases hr
  | ok places =>
    rw [hp] at hr
    obtain ⟨h1, h2, h3⟩ := reads_fold places hr
    have hreads := hreads places hp
    have ht : ∀ i, table .lookupReadTags i = if i ∈ places then 1 else 0 := fun i => by rw [htags, h3]
    have hc : ∀ i, table .lookupReadCounts i = (places.count i : F) := fun i => by rw [hcounts, h2]; simp
    have hi1 : ∀ i < n, table .qLookup i = 1 ∨ table .lookupReadTags i = 1 →
        table .lookupInverses i = ((comb p.beta (lookedUp table i) + p.gamma) * (comb p.beta (entry table i) + p.gamma))⁻¹ := by
      intro i _ ha
      rw [hinv, lookupInverses, if_pos ha, computeReadTerm_eq, computeWriteTerm_eq]
    have hi0 : ∀ i, ¬ (table .qLookup i = 1 ∨ table .lookupReadTags i = 1) → table .lookupInverses i = 0 := by
      intro i ha
      rw [hinv, lookupInverses, if_neg ha, inv_zero]
    refine ⟨?_, ?_, ?_⟩
    · intro i hi
      rw [lookup0_eq]
      by_cases ha : table .qLookup i = 1 ∨ table .lookupReadTags i = 1
      · obtain ⟨d1, d2⟩ := hden i hi ha
        rw [hi1 i hi ha, mul_inv_cancel₀ (mul_ne_zero d1 d2)]
        rcases ha with ha | ha <;> rw [ha] <;> ring
      · rw [hi0 i ha]
        rw [not_or] at ha
        have e1 := (hq i hi).resolve_right ha.1
        have e2 : table .lookupReadTags i = 0 := by
          rw [ht]
          rw [ht] at ha
          by_cases hm : i ∈ places
          · rw [if_pos hm] at ha; exact absurd rfl ha.2
          · rw [if_neg hm]
        rw [e1, e2]; ring
    · intro i _
      rw [lookup2_eq, ht]
      split_ifs <;> ring
    · have hterm : ∀ i ∈ range n, Subrel.lookup1.value F p (fun c => table c i) =
          (if table .qLookup i = 1 then (comb p.beta (lookedUp table i) + p.gamma)⁻¹ else 0) -
            (places.count i : F) * (comb p.beta (entry table i) + p.gamma)⁻¹ := by
        intro i hi
        rw [mem_range] at hi
        rw [lookup1_eq, hc]
        by_cases ha : table .qLookup i = 1 ∨ table .lookupReadTags i = 1
        · obtain ⟨d1, d2⟩ := hden i hi ha
          rw [hi1 i hi ha]
          rcases hq i hi with hq0 | hq1
          · rw [hq0, if_neg (by simp)]
            field_simp
            ring
          · rw [hq1, if_pos rfl]
            field_simp
        · rw [hi0 i ha]
          rw [not_or] at ha
          have hm : i ∉ places := fun hm => ha.2 (by rw [ht, if_pos hm])
          rw [if_neg ha.1, List.count_eq_zero_of_not_mem hm]
          simp
      rw [Finset.sum_congr rfl hterm, Finset.sum_sub_distrib, ← sum_count places h1, sub_eq_zero]
      have e1 : ∑ i ∈ range n, (if table .qLookup i = 1 then (comb p.beta (lookedUp table i) + p.gamma)⁻¹ else 0) =
          ((((List.range n).filter fun i => table .qLookup i = 1).map (lookedUp table)).map
            fun x => (comb p.beta x + p.gamma)⁻¹).sum := by
        rw [← Finset.sum_filter]
        rw [List.map_map, ← List.sum_toFinset _ (List.nodup_range.filter _)]
        refine Finset.sum_congr ?_ fun _ _ => rfl
        ext i
        simp
      rw [e1, (hreads.map _).sum_eq, List.map_map]
      rfl

/-- The places hold the answers. -/
theorem answers_eq {toNat : F → Nat} {tables : List (LookupTable F)} {before : List (F × F × F × F)} {places : List Nat}
    (h : readPlaces toNat before.length tables = .ok places)
    (hs : ∀ x ∈ tables.flatMap fun t => t.gates.map (t.answer toNat), x.isSome) :
    places.map (fun i => (before ++ tableRows tables)[i]?) = tables.flatMap fun t => t.gates.map (t.answer toNat) := by
  induction tables generalizing before places with
  | nil => cases h; rfl
  | cons t ts ih =>
    rw [readPlaces] at h
    cases hm : t.gates.mapM (t.indexOf toNat) with
    | error e => rw [hm] at h; cases h
    | ok here =>
      rw [hm] at h
      have hlen : before.length + t.rows.length =
          (before ++ t.rows.map fun r => (r.1, r.2.1, r.2.2, (t.tableIndex : F))).length := by simp
      cases ht : readPlaces toNat (before.length + t.rows.length) ts with
      | error e => simp only [bind, Except.bind, ht] at h; cases h
      | ok there =>
        simp only [bind, Except.bind, ht] at h
        cases h
        rw [hlen] at ht
        have h2 := ih ht fun x hx => hs x (by rw [List.flatMap_cons]; exact List.mem_append_right _ hx)
        rw [List.map_append, List.flatMap_cons]
        have hrows : before ++ tableRows (t :: ts) =
            (before ++ t.rows.map fun r => (r.1, r.2.1, r.2.2, (t.tableIndex : F))) ++ tableRows ts := by
          rw [tableRows, List.flatMap_cons, List.append_assoc]; rfl
        rw [hrows, h2]
        congr 1
        have hs1 : ∀ x ∈ t.gates.map (t.answer toNat), x.isSome := fun x hx =>
          hs x (by rw [List.flatMap_cons]; exact List.mem_append_left _ hx)
        clear h2 hs ht hlen hrows ih
        generalize t.gates = gates at hm hs1 ⊢
        induction gates generalizing here with
        | nil => cases hm; rfl
        | cons g gates ih =>
          rw [List.mapM_cons] at hm
          cases hi : t.indexOf toNat g with
          | error e => rw [hi] at hm; cases hm
          | ok k =>
            rw [hi] at hm
            cases hg : gates.mapM (t.indexOf toNat) with
            | error e => simp only [bind, Except.bind, hg] at hm; cases hm
            | ok ks =>
              simp only [bind, Except.bind, hg] at hm
              cases hm
              have := ih ks hg fun x hx => hs1 x (List.mem_cons_of_mem _ hx)
              rw [List.map_cons, List.map_cons, List.map_cons, this]
              congr 1
              have ha := hs1 (t.answer toNat g) (by simp)
              rw [LookupTable.answer, hi] at ha ⊢
              dsimp only at ha ⊢
              rw [Option.isSome_map, isSome_getElem?] at ha
              rw [List.append_assoc, List.getElem?_append_right (Nat.le_add_right _ _), Nat.add_sub_cancel_left,
                List.getElem?_append_left (by simpa using ha), List.getElem?_map]

/-- What a place in the tables holds is its entry in the columns. -/
theorem places_entry {toNat : F → Nat} {tables : List (LookupTable F)} {n : Nat} {places : List Nat} {cols : Nat → F × F × F × F}
    (hp : readPlaces toNat 0 tables = .ok places) (hc : tableColumns tables n = .ok cols) {table : Col → Nat → F}
    (ht : ∀ i < n, entry table i = cols i) {l : List (F × F × F × F)}
    (hl : (l.map some).Perm (tables.flatMap fun t => t.gates.map (t.answer toNat))) : l.Perm (places.map (entry table)) := by
  have hs : ∀ x ∈ tables.flatMap fun t => t.gates.map (t.answer toNat), x.isSome := by
    intro x hx
    obtain ⟨y, _, rfl⟩ := List.mem_map.1 (hl.symm.subset hx)
    rfl
  have h := answers_eq (before := []) hp hs
  rw [tableColumns] at hc
  by_cases hn : n > (tableRows tables).length
  swap
  · rw [if_neg hn] at hc; cases hc
  rw [if_pos hn] at hc
  have hmap : places.map (fun i => ([] ++ tableRows tables)[i]?) = (places.map (entry table)).map some := by
    rw [List.map_map]
    refine List.map_congr_left fun i hi => ?_
    have hsome := hs ((tableRows tables)[i]?) (by
      rw [← h]; exact List.mem_map.2 ⟨i, hi, rfl⟩)
    rw [isSome_getElem?] at hsome
    rw [Function.comp_apply, ht i (by omega), ← Except.ok.inj hc, List.nil_append, List.getElem?_eq_getElem hsome]
    dsimp only
    rw [List.getD_eq_getElem?_getD, List.getElem?_eq_getElem hsome]
    rfl
  rw [← h, hmap] at hl
  have := hl.map (fun x => x.getD 0)
  simpa [List.map_map, Function.comp_def] using this

/-! ## Soundness -/

/-- The difference of two fingerprints as a polynomial. -/
noncomputable def combDiff (x y : F × F × F × F) : F[X] :=
  C (x.1 - y.1) + C (x.2.1 - y.2.1) * X + C (x.2.2.1 - y.2.2.1) * X ^ 2 + C (x.2.2.2 - y.2.2.2) * X ^ 3

omit [DecidableEq F] in
theorem combDiff_eval (x y : F × F × F × F) (β : F) : (combDiff x y).eval β = comb β x - comb β y := by
  simp only [combDiff, comb, eval_add, eval_mul, eval_C, eval_X, eval_pow]; ring

omit [DecidableEq F] in
theorem combDiff_natDegree (x y : F × F × F × F) : (combDiff x y).natDegree ≤ 3 := by
  rw [combDiff]; compute_degree

omit [DecidableEq F] in
theorem combDiff_ne_zero {x y : F × F × F × F} (h : x ≠ y) : combDiff x y ≠ 0 := by
  intro hz
  apply h
  have hc : ∀ k, (combDiff x y).coeff k = 0 := fun k => by rw [hz, coeff_zero]
  have h0 := hc 0
  have h1 := hc 1
  have h2 := hc 2
  have h3 := hc 3
  simp only [combDiff, coeff_add, coeff_C_mul, coeff_X_pow, coeff_X, coeff_C] at h0 h1 h2 h3
  norm_num at h0 h1 h2 h3
  rw [sub_eq_zero] at h0 h1 h2 h3
  exact Prod.ext h0 (Prod.ext h1 (Prod.ext h2 h3))

/-- The exceptional values of the first challenge. -/
noncomputable def lookupBadβ (n : Nat) (table : Col → Nat → F) : Finset F :=
  (range n ×ˢ range n).biUnion fun x => (combDiff (lookedUp table x.1) (entry table x.2)).roots.toFinset

theorem lookupBadβ_card (n : Nat) (table : Col → Nat → F) : (lookupBadβ n table).card ≤ 3 * n ^ 2 := by
  refine Finset.card_biUnion_le.trans ?_
  refine (Finset.sum_le_card_nsmul _ _ 3 fun x _ => ?_).trans ?_
  · exact (Multiset.toFinset_card_le _).trans ((card_roots' _).trans (combDiff_natDegree _ _))
  · rw [Finset.card_product, card_range, smul_eq_mul, sq, mul_comm]

theorem comb_inj {n : Nat} {table : Col → Nat → F} {β : F} (hβ : β ∉ lookupBadβ n table) {i j : Nat} (hi : i < n) (hj : j < n)
    (h : comb β (lookedUp table i) = comb β (entry table j)) : lookedUp table i = entry table j := by
  by_contra hne
  refine hβ (mem_biUnion.2 ⟨(i, j), mem_product.2 ⟨mem_range.2 hi, mem_range.2 hj⟩, ?_⟩)
  rw [Multiset.mem_toFinset, mem_roots (combDiff_ne_zero hne), IsRoot, combDiff_eval, h, sub_self]

section Poles

variable (n : Nat) (q : Nat → Bool) (a t m : Nat → F)

/-- The values of the reads and of the entries. -/
def poles : Finset F := (range n).image a ∪ (range n).image t

/-- The numerator of the sum of the fractions. -/
noncomputable def fracNum : F[X] :=
  ∑ i ∈ range n with q i, ∏ v ∈ (poles n a t).erase (a i), (X + C v)
    - ∑ j ∈ range n, C (m j) * ∏ v ∈ (poles n a t).erase (t j), (X + C v)

omit [Field F] in
theorem poles_card : (poles n a t).card ≤ 2 * n := by
  refine (card_union_le _ _).trans ?_
  have h1 := card_image_le (s := range n) (f := a)
  have h2 := card_image_le (s := range n) (f := t)
  rw [card_range] at h1 h2
  omega

theorem fracNum_natDegree : (fracNum n q a t m).natDegree ≤ 2 * n := by
  have hprod : ∀ x, (∏ v ∈ (poles n a t).erase x, (X + C v) : F[X]).natDegree ≤ 2 * n := by
    intro x
    refine (natDegree_prod_le _ _).trans ?_
    refine (Finset.sum_le_card_nsmul _ _ 1 fun v _ => (natDegree_X_add_C v).le).trans ?_
    rw [smul_eq_mul, mul_one]
    exact (card_le_card (erase_subset _ _)).trans (poles_card n a t)
  refine (natDegree_sub_le _ _).trans (max_le ?_ ?_)
  · exact natDegree_sum_le_of_forall_le _ _ fun i _ => hprod _
  · exact natDegree_sum_le_of_forall_le _ _ fun i _ => (natDegree_C_mul_le _ _).trans (hprod _)

/-- The exceptional values of the second challenge. -/
noncomputable def lookupBadγ : Finset F := (fracNum n q a t m).roots.toFinset ∪ (poles n a t).image (- ·)

theorem lookupBadγ_card : (lookupBadγ n q a t m).card ≤ 4 * n := by
  refine (card_union_le _ _).trans ?_
  have h1 := (Multiset.toFinset_card_le _).trans ((card_roots' _).trans (fracNum_natDegree n q a t m))
  have h2 := (card_image_le (s := poles n a t) (f := (- · : F → F))).trans (poles_card n a t)
  omega

variable {n q a t m}

/-- If the sum of the fractions is zero, every pole on the left is one on the right. -/
theorem pole_mem (hF : Distinct F (n + 1)) {γ : F} (hγ : γ ∉ lookupBadγ n q a t m)
    (h : ∑ i ∈ range n with q i, (a i + γ)⁻¹ - ∑ j ∈ range n, m j * (t j + γ)⁻¹ = 0) {i : Nat} (hi : i < n) (hqi : q i = true) :
    ∃ j < n, t j = a i := by
  by_contra hno
  push Not at hno
  rw [lookupBadγ, mem_union, not_or] at hγ
  have hne : ∀ v ∈ poles n a t, γ + v ≠ 0 := fun v hv e => hγ.2 (mem_image.2 ⟨v, hv, by linear_combination -e⟩)
  have ha : ∀ i ∈ range n, a i ∈ poles n a t := fun i hi => mem_union_left _ (mem_image_of_mem _ hi)
  have ht : ∀ i ∈ range n, t i ∈ poles n a t := fun i hi => mem_union_right _ (mem_image_of_mem _ hi)
  have herase : ∀ x ∈ poles n a t, ∏ v ∈ (poles n a t).erase x, (γ + v) = (∏ v ∈ poles n a t, (γ + v)) * (x + γ)⁻¹ := by
    intro x hx
    rw [← Finset.mul_prod_erase _ _ hx, add_comm x γ]
    have := hne x hx
    field_simp
  have hroot : (fracNum n q a t m).eval γ = 0 := by
    rw [fracNum, eval_sub, eval_finsetSum, eval_finsetSum]
    simp only [eval_mul, eval_prod, eval_add, eval_X, eval_C]
    have e1 : ∑ i ∈ range n with q i, ∏ v ∈ (poles n a t).erase (a i), (γ + v) =
        (∏ v ∈ poles n a t, (γ + v)) * ∑ i ∈ range n with q i, (a i + γ)⁻¹ := by
      rw [Finset.mul_sum]
      exact Finset.sum_congr rfl fun i hi => herase _ (ha i (mem_filter.1 hi).1)
    have e2 : ∑ j ∈ range n, m j * ∏ v ∈ (poles n a t).erase (t j), (γ + v) =
        (∏ v ∈ poles n a t, (γ + v)) * ∑ j ∈ range n, m j * (t j + γ)⁻¹ := by
      rw [Finset.mul_sum]
      refine Finset.sum_congr rfl fun j hj => ?_
      rw [herase _ (ht j hj)]; ring
    rw [e1, e2, ← mul_sub, h, mul_zero]
  have hzero : fracNum n q a t m = 0 := by
    by_contra hnz
    exact hγ.1 (Multiset.mem_toFinset.2 ((mem_roots hnz).2 hroot))
  have hat := congrArg (eval (-a i)) hzero
  rw [fracNum, eval_sub, eval_finsetSum, eval_finsetSum, eval_zero] at hat
  simp only [eval_mul, eval_prod, eval_add, eval_X, eval_C] at hat
  have hai := ha i (mem_range.2 hi)
  have hvanish : ∀ x, x ≠ a i → ∏ v ∈ (poles n a t).erase x, (-a i + v) = 0 := fun x hx =>
    Finset.prod_eq_zero (mem_erase.2 ⟨Ne.symm hx, hai⟩) (neg_add_cancel _)
  have e2 : ∑ j ∈ range n, m j * ∏ v ∈ (poles n a t).erase (t j), (-a i + v) = 0 :=
    Finset.sum_eq_zero fun j hj => by rw [hvanish _ (hno j (mem_range.1 hj)), mul_zero]
  have e1 : ∑ k ∈ range n with q k, ∏ v ∈ (poles n a t).erase (a k), (-a i + v) =
      (((range n).filter fun k => q k = true ∧ a k = a i).card : F) * ∏ v ∈ (poles n a t).erase (a i), (-a i + v) := by
    rw [← nsmul_eq_mul, ← Finset.sum_const]
    rw [← Finset.filter_filter, Finset.sum_filter (p := fun k => a k = a i)]
    refine Finset.sum_congr rfl fun k _ => ?_
    by_cases hk : a k = a i
    · rw [if_pos hk, hk]
    · rw [if_neg hk, hvanish _ hk]
  rw [e1, e2, sub_zero] at hat
  rcases mul_eq_zero.1 hat with h0 | h0
  · have hpos : 0 < ((range n).filter fun k => q k = true ∧ a k = a i).card :=
      card_pos.2 ⟨i, mem_filter.2 ⟨mem_range.2 hi, hqi, rfl⟩⟩
    have hle : ((range n).filter fun k => q k = true ∧ a k = a i).card ≤ n := (card_filter_le _ _).trans (card_range n).le
    have := hF _ (Nat.lt_succ_of_le hle) 0 (by omega) (by rw [h0, Nat.cast_zero])
    omega
  · obtain ⟨v, hv, hv0⟩ := Finset.prod_eq_zero_iff.1 h0
    have : v = a i := by linear_combination hv0
    exact (mem_erase.1 hv).1 this

end Poles

end Verif.Honk
