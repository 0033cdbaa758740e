import Verif.Honk.OinkLemmas

/-!
# The grand product of UltraHonk
-/

namespace Verif.Honk

variable {F : Type} [Field F] [DecidableEq F]

/-! ## Products -/

omit [DecidableEq F] in
theorem factors_append (β γ : F) (l r : List (F × F)) : factors β γ (l ++ r) = factors β γ l * factors β γ r := by
  rw [factors, List.map_append, List.prod_append]; rfl

omit [DecidableEq F] in
theorem factors_rows (β γ : F) (w col : Fin 4 → Nat → F) (d : Cell → F) (rs : List Nat) (h : ∀ j, ∀ r ∈ rs, col j r = d (j, r)) :
    factors β γ ((rs.flatMap fun r => [((0 : Fin 4), r), (1, r), (2, r), (3, r)]).map fun x => (onCells w x, d x)) =
      (rs.map (rowProduct β γ w col)).prod := by
  induction rs with
  | nil => rfl
  | cons r rs ih =>
    have e := fun j => h j r (by simp)
    rw [List.flatMap_cons, List.map_append, factors_append, ih fun j r' hr => h j r' (List.mem_cons_of_mem _ hr)]
    simp only [List.map_cons (a := r), List.prod_cons (a := rowProduct β γ w col r)]
    congr 1
    simp only [factors, List.map_cons, List.map_nil, List.prod_cons, List.prod_nil, onCells, rowProduct, e]
    ring

/-- The factors of the public inputs in the numerator of the delta. -/
def pubNum (β γ : F) (pub : List F) : F :=
  factors β γ ((List.range' 1 pub.length).map fun r => (pubAt pub r, ((separator + r : Nat) : F)))

/-- The factors of the public inputs in the denominator of the delta. -/
def pubDen (β γ : F) (pub : List F) : F :=
  factors β γ ((List.range' 1 pub.length).map fun r => (pubAt pub r, -((r + 1 : Nat) : F)))

omit [DecidableEq F] in
theorem zipIdx_pubAt (pub : List F) (g : F × Nat → F × F) :
    (pub.zipIdx 1).map g = (List.range' 1 pub.length).map fun r => g (pubAt pub r, r) := by
  refine List.ext_getElem (by simp) fun i h1 h2 => ?_
  simp only [List.length_map, List.length_zipIdx] at h1
  simp [pubAt, h1, Nat.add_comm]

omit [DecidableEq F] in
theorem delta_fold (β γ : F) (pub : List F) (o : Nat) (a b : F) :
    pub.foldl
      (fun (a : DeltaAcc F) x => ⟨a.num * (a.numAcc + x), a.denom * (a.denomAcc + x), a.numAcc + β, a.denomAcc - β⟩)
      ⟨a, b, γ + ((separator : F) + (o : F)) * β, γ - ((1 + o : Nat) : F) * β⟩ =
    ⟨a * factors β γ ((pub.zipIdx o).map fun x => (x.1, ((separator + x.2 : Nat) : F))),
      b * factors β γ ((pub.zipIdx o).map fun x => (x.1, -((x.2 + 1 : Nat) : F))),
      γ + ((separator : F) + ((o + pub.length : Nat) : F)) * β, γ - ((1 + (o + pub.length) : Nat) : F) * β⟩ := by
  induction pub generalizing o a b with
  | nil => simp [factors]
  | cons x pub ih =>
    rw [List.foldl_cons]
    have e1 : γ + ((separator : F) + (o : F)) * β + β = γ + ((separator : F) + ((o + 1 : Nat) : F)) * β := by push_cast; ring
    have e2 : γ - ((1 + o : Nat) : F) * β - β = γ - ((1 + (o + 1) : Nat) : F) * β := by push_cast; ring
    simp only [e1, e2]
    rw [ih]
    simp only [List.zipIdx_cons, List.map_cons, factors, List.prod_cons, List.length_cons, Nat.add_assoc, Nat.add_comm 1 pub.length]
    congr 1
    · push_cast; ring
    · push_cast; ring

theorem delta_eq (β γ : F) (pub : List F) : publicInputDelta β γ pub 1 =
    if pubDen β γ pub = 0 then .error (.panic "called `Option::unwrap()` on a `None` value")
    else .ok (pubNum β γ pub / pubDen β γ pub) := by
  have e1 : factors β γ ((pub.zipIdx 1).map fun x => (x.1, ((separator + x.2 : Nat) : F))) = pubNum β γ pub := by
    rw [zipIdx_pubAt]; rfl
  have e2 : factors β γ ((pub.zipIdx 1).map fun x => (x.1, -((x.2 + 1 : Nat) : F))) = pubDen β γ pub := by
    rw [zipIdx_pubAt]; rfl
  rw [publicInputDelta]
  simp only [delta_fold, one_mul, e1, e2]

theorem delta_ok {β γ : F} {pub : List F} {δ : F} (h : publicInputDelta β γ pub 1 = .ok δ) :
    pubDen β γ pub ≠ 0 ∧ δ * pubDen β γ pub = pubNum β γ pub := by
  rw [delta_eq] at h
  by_cases hd : pubDen β γ pub = 0
  · rw [if_pos hd] at h; cases h
  · rw [if_neg hd] at h
    refine ⟨hd, ?_⟩
    rw [← Except.ok.inj h]
    exact div_mul_cancel₀ _ hd

theorem delta_exists {β γ : F} {pub : List F} (h : pubDen β γ pub ≠ 0) : ∃ δ, publicInputDelta β γ pub 1 = .ok δ := by
  rw [delta_eq, if_neg h]
  exact ⟨_, rfl⟩

/-- The product over rows `1, …, k`. -/
def upTo (f : Nat → F) (k : Nat) : F := ((List.range' 1 k).map f).prod

omit [DecidableEq F] in
theorem upTo_succ (f : Nat → F) (k : Nat) : upTo f (k + 1) = upTo f k * f (k + 1) := by
  rw [upTo, List.range'_1_concat, List.map_append, List.prod_append, Nat.add_comm 1 k]; simp [upTo]

section Lists

variable {c : Builder F} {key : Key F} {s d : Cell → Target} (hk : KeyFacts c key s d) (β γ : F) (w : Fin 4 → Nat → F) (pub : List F)
  (hpub : pub.length = c.inputs.length)

include hk hpub

omit [DecidableEq F] in
theorem factors_idList : factors β γ (idList c (onCells w) (pubAt pub) fun x => (d x).value) =
    upTo (rowProduct β γ w key.id) c.rows.length * pubDen β γ pub := by
  rw [idList, factors_append, Builder.places_fst, factors_rows β γ w key.id _ _ (fun j r hr => by rw [hk.id, if_pos hr]), pubDen,
    hpub]
  rfl

omit [DecidableEq F] in
theorem factors_sigmaList : factors β γ (sigmaList c (onCells w) (pubAt pub) (sigmaValue c s)) =
    upTo (rowProduct β γ w key.sigma) c.rows.length * pubNum β γ pub := by
  rw [sigmaList, factors_append, Builder.places_fst, factors_rows β γ w key.sigma _ _ (fun j r hr => by rw [hk.sigma, if_pos hr]),
    pubNum, hpub]
  rfl

end Lists

/-! ## The grand product -/

omit [DecidableEq F] in
theorem accumulate_fold (l : List F) (acc : List F) (x : F) :
    l.foldl (fun (s : List F × F) x => (s.1 ++ [x * s.2], x * s.2)) (acc, x) =
      (acc ++ (List.range l.length).map fun i => (l.take (i + 1)).prod * x, l.prod * x) := by
  induction l generalizing acc x with
  | nil => simp
  | cons y l ih =>
    rw [List.foldl_cons, ih, List.length_cons, List.range_succ_eq_map, List.map_cons, List.map_map]
    refine Prod.ext ?_ (by rw [List.prod_cons]; ring)
    simp only [List.append_assoc, List.singleton_append, List.take_succ_cons, List.take_zero, List.prod_cons, List.prod_nil,
      mul_one, Function.comp_def]
    congr 2
    refine List.map_congr_left fun i _ => ?_
    ring

omit [DecidableEq F] in
theorem accumulate_eq (l : List F) : accumulate l = (List.range l.length).map fun i => (l.take (i + 1)).prod := by
  rw [accumulate, accumulate_fold]; simp

omit [DecidableEq F] in
theorem accumulate_rows (f : Nat → F) (k : Nat) : accumulate ((List.range' 1 k).map f) =
    (List.range k).map fun i => upTo f (i + 1) := by
  rw [accumulate_eq, List.length_map, List.length_range']
  refine List.map_congr_left fun i hi => ?_
  rw [List.mem_range] at hi
  rw [upTo, ← List.map_take, List.take_range'_of_length_ge (by omega)]

omit [DecidableEq F] in
theorem gapStart_none {ranges : List (Nat × Nat)} (h : ranges.IsChain fun r s => r.2 = s.1) (i : Nat) :
    gapStart ranges i = none := by
  rw [gapStart, List.findSome?_eq_none_iff]
  intro x hx
  rw [if_neg]
  induction ranges with
  | nil => simp at hx
  | cons r rs ih =>
    cases rs with
    | nil => simp at hx
    | cons t ts =>
      rw [List.isChain_cons_cons] at h
      rw [List.tail_cons, List.zip_cons_cons, List.mem_cons] at hx
      rcases hx with rfl | hx
      · have := h.1; simp only; omega
      · exact ih h.2 hx

omit [DecidableEq F] in
theorem fold_updates (k : Nat) (v : Nat → F) (z : Nat → F) (y : Nat) :
    ((List.range k).map fun i => (i + 2, v i)).foldl (fun z x => Function.update z x.1 x.2) z y =
      if 2 ≤ y ∧ y < k + 2 then v (y - 2) else z y := by
  induction k with
  | zero => rw [if_neg (by omega)]; rfl
  | succ k ih =>
    rw [List.range_succ, List.map_append, List.foldl_append]
    simp only [List.map_cons, List.map_nil, List.foldl_cons, List.foldl_nil]
    by_cases hy : y = k + 2
    · subst hy; rw [Function.update_self, if_pos (by omega), Nat.add_sub_cancel]
    · rw [Function.update_of_ne hy, ih]
      have : (2 ≤ y ∧ y < k + 2) ↔ (2 ≤ y ∧ y < k + 1 + 2) := by omega
      simp only [this]

theorem mapM_ok {α β : Type} {f : α → Except Err β} {g : α → β} : ∀ (l : List α), (∀ x ∈ l, f x = .ok (g x)) →
    l.mapM f = .ok (l.map g)
  | [], _ => rfl
  | x :: l, h => by
    rw [List.mapM_cons, h x (by simp), mapM_ok l fun y hy => h y (List.mem_cons_of_mem _ hy)]
    rfl

/-- What the grand product is. -/
theorem grandProduct_ok {c : Builder F} {key : Key F} {s d : Cell → Target} (hk : KeyFacts c key s d) (hne : c.rows ≠ [])
    (w : Fin 4 → Nat → F) (β γ : F) : ∃ z, grandProduct key w β γ = .ok z ∧ z 0 = 0 ∧ z 1 = 1 ∧
      (∀ i, 1 ≤ i → i < c.rows.length →
        z (i + 1) = upTo (rowProduct β γ w key.id) i * (upTo (rowProduct β γ w key.sigma) i)⁻¹) ∧
      ∀ i, c.rows.length < i → 2 ≤ i → z i = 0 := by
  have hN : 0 < c.rows.length := List.length_pos_of_ne_nil hne
  generalize hNe : c.rows.length = N at *
  have hidx : ∀ i < N, index key.active.idxs i = .ok (1 + i) := by
    intro i hi
    rw [index, hk.idxs, hNe, List.getElem?_range' hi]; simp
  have hlen : key.active.idxs.length = N := by rw [hk.idxs, hNe, List.length_range']
  have hsz : ¬ key.size ≤ 1 := by have := rows_le_dyadic c; rw [hk.size]; omega
  have hr1 : (List.range (N - 1)).mapM (fun i => if N > 0 then index key.active.idxs i else Except.ok i) =
      .ok ((List.range (N - 1)).map (1 + ·)) := by
    refine mapM_ok _ fun i hi => ?_
    rw [if_pos hN, hidx i (by rw [List.mem_range] at hi; omega)]
  have hr2 : (List.range (N - 1)).mapM (fun i => if N > 0 then index key.active.idxs (i + 1) else Except.ok (i + 1)) =
      .ok ((List.range (N - 1)).map (· + 2)) := by
    refine mapM_ok _ fun i hi => ?_
    rw [if_pos hN, hidx (i + 1) (by rw [List.mem_range] at hi; omega)]
    congr 1; omega
  have hrange : (List.range (N - 1)).map (1 + ·) = List.range' 1 (N - 1) := (List.range'_eq_map_range ..).symm
  have hgap : ∀ (z : Nat → F) (l : List Nat), l.foldl (fun z i => match gapStart key.active.ranges i with
      | some s => Function.update z i (z s)
      | none => z) z = z := by
    intro z l
    induction l with
    | nil => rfl
    | cons i l ih => rw [List.foldl_cons, gapStart_none hk.ranges]; exact ih
  have hzip : ((List.range (N - 1)).map (· + 2)).zip (((List.range (N - 1)).map fun i => upTo (rowProduct β γ w key.id) (i + 1)).zip
      (((List.range (N - 1)).map fun i => upTo (rowProduct β γ w key.sigma) (i + 1)).map (·⁻¹))) =
      (List.range (N - 1)).map fun i => (i + 2, upTo (rowProduct β γ w key.id) (i + 1),
        (upTo (rowProduct β γ w key.sigma) (i + 1))⁻¹) := by
    rw [List.map_map, List.zip_map', List.zip_map']; rfl
  have hfold : ∀ z : Nat → F, ((List.range (N - 1)).map fun i => (i + 2, upTo (rowProduct β γ w key.id) (i + 1),
        (upTo (rowProduct β γ w key.sigma) (i + 1))⁻¹)).foldl (fun z x => Function.update z x.1 (x.2.1 * x.2.2)) z =
      ((List.range (N - 1)).map fun i => (i + 2, upTo (rowProduct β γ w key.id) (i + 1) *
        (upTo (rowProduct β γ w key.sigma) (i + 1))⁻¹)).foldl (fun z x => Function.update z x.1 x.2) z := by
    intro z
    rw [List.foldl_map, List.foldl_map]
  refine ⟨((List.range (N - 1)).map fun i => (i + 2, upTo (rowProduct β γ w key.id) (i + 1) *
    (upTo (rowProduct β γ w key.sigma) (i + 1))⁻¹)).foldl (fun z x => Function.update z x.1 x.2)
      (Function.update (fun _ => (0 : F)) 1 1), ?_, ?_⟩
  · rw [grandProduct]
    simp only [hlen, if_pos hN, bind, Except.bind, pure, Except.pure] at hr1 hr2 ⊢
    simp only [hr1, hr2, hrange, hsz, if_false, accumulate_rows, hzip, hfold]
    exact congrArg Except.ok (hgap _ _)
  · refine ⟨?_, ?_, ?_, ?_⟩
    · rw [fold_updates, if_neg (by omega)]; rfl
    · rw [fold_updates, if_neg (by omega)]; rfl
    · intro i h1 h2
      rw [fold_updates, if_pos (by omega)]
      have : i + 1 - 2 + 1 = i := by omega
      simp only [this]
    · intro i h1 h2
      rw [fold_updates, if_neg (by omega), Function.update_of_ne (by omega)]

end Verif.Honk
