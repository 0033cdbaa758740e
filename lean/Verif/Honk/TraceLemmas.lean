import Verif.Honk.Oink
import Verif.Honk.Cycles

/-!
# What the proving key contains
-/

namespace Verif.Honk

variable {F : Type}

/-! ## The rows and the active region -/

theorem getElem_of_index {α : Type} {l : List α} {i : Nat} {x : α} (h : index l i = .ok x) : l[i]? = some x := by
  rw [index] at h
  split at h
  · next y hy => rw [hy]; exact congrArg some (Except.ok.inj h)
  · cases h

namespace Builder

theorem rows_eq (c : Builder F) : c.rows = c.blocks.flatten := by rw [rows, blocks, List.flatten_cons]; rfl

theorem cells_offsets (bs : List (List Row)) (o : Nat) :
    cells (offsets o bs) =
      (bs.flatten.zipIdx o).flatMap fun row => (List.finRange 4).map fun j => ((j, row.2), row.1 j) := by
  induction bs generalizing o with
  | nil => rfl
  | cons b bs ih =>
    have := ih (o + b.length)
    simp only [cells] at this ⊢
    rw [offsets, List.flatMap_cons, this, List.flatten_cons, List.zipIdx_append, List.flatMap_append]

theorem cells_eq (c : Builder F) : cells c.placed =
    (c.rows.zipIdx 1).flatMap fun row => (List.finRange 4).map fun j => ((j, row.2), row.1 j) := by
  rw [placed, cells_offsets, rows_eq]

theorem publicOffset_eq (c : Builder F) : c.publicOffset = 1 := rfl

theorem final_offsets (bs : List (List Row)) (o last : Nat) (ho : 1 ≤ o) :
    (offsets o bs).foldl (fun last b => if b.2.isEmpty then last else b.1 + b.2.length - 1) last =
      if bs.flatten = [] then last else o + bs.flatten.length - 1 := by
  induction bs generalizing o last with
  | nil => rfl
  | cons b bs ih =>
    rw [offsets, List.foldl_cons, ih _ _ (by omega), List.flatten_cons]
    by_cases hb : b = []
    · subst hb; simp
    · have h1 : b.isEmpty = false := by simpa using hb
      have h2 : b ++ bs.flatten ≠ [] := by simp [hb]
      simp only [h1, Bool.false_eq_true, if_false, if_neg h2, List.length_append]
      by_cases hbs : bs.flatten = []
      · simp [hbs]
      · rw [if_neg hbs]; omega

theorem finalActive_eq (c : Builder F) (h : c.rows ≠ []) : c.finalActive = c.rows.length := by
  rw [finalActive, placed, final_offsets _ _ _ (le_refl 1), ← rows_eq, if_neg h]; omega

end Builder

/-- The ranges touch each other, and the last one ends at `o`. -/
def Touching (ranges : List (Nat × Nat)) (o : Nat) : Prop :=
  ranges.IsChain (fun r s => r.2 = s.1) ∧ ∀ r, ranges.getLast? = some r → r.2 = o

theorem active_offsets (bs : List (List Row)) (o : Nat) (a : ActiveRegion) (ha : a.currentEnd ≤ o) (ht : Touching a.ranges o) :
    ∃ a', (Builder.offsets o bs).foldlM
        (fun a b => if 0 < b.2.length then ActiveRegion.addRange a b.1 (b.1 + b.2.length) else .ok a) a = .ok a' ∧
      a'.idxs = a.idxs ++ List.range' o bs.flatten.length ∧ a'.currentEnd ≤ o + bs.flatten.length ∧
      Touching a'.ranges (o + bs.flatten.length) := by
  induction bs generalizing o a with
  | nil => exact ⟨a, rfl, by simp, by simpa using ha, by simpa using ht⟩
  | cons b bs ih =>
    rw [Builder.offsets, List.foldlM_cons]
    by_cases hb : 0 < b.length
    · obtain ⟨a', e, h1, h2, h3⟩ := ih (o + b.length)
        ⟨a.ranges ++ [(o, o + b.length)], a.idxs ++ List.range' o b.length, o + b.length⟩ (le_refl _) (by
          refine ⟨?_, by simp⟩
          rw [List.isChain_append]
          refine ⟨ht.1, by simp, ?_⟩
          intro x hx y hy
          simp only [List.head?_cons, Option.mem_def, Option.some.injEq] at hy
          rw [← hy]
          exact ht.2 x hx)
      refine ⟨a', ?_, ?_, ?_, ?_⟩
      · rw [if_pos hb, ActiveRegion.addRange, if_pos ha, Nat.add_sub_cancel_left]
        exact e
      · rw [h1, List.flatten_cons, List.length_append, List.append_assoc, List.range'_append_1]
      · rw [List.flatten_cons, List.length_append]; omega
      · rw [List.flatten_cons, List.length_append, ← Nat.add_assoc]; exact h3
    · have hb' := hb
      have hb : b = [] := List.length_eq_zero_iff.1 (by omega)
      subst hb
      obtain ⟨a', e, h⟩ := ih o a ha ht
      exact ⟨a', by rw [if_neg hb']; exact e, by simpa using h⟩

theorem activeRegion_ok (c : Builder F) : ∃ a, activeRegion c = .ok a ∧ a.idxs = List.range' 1 c.rows.length ∧
    a.ranges.IsChain fun r s => r.2 = s.1 := by
  obtain ⟨a, e, h1, -, h3⟩ := active_offsets c.blocks 1 ⟨[], [], 0⟩ (Nat.zero_le _) ⟨by simp, by simp⟩
  refine ⟨a, e, ?_, h3.1⟩
  rw [h1, Builder.rows_eq]; rfl

/-! ## The cells -/

/-- The places of a list of rows that starts at a row of the trace. -/
def placesFrom (o : Nat) (rows : List Row) : List (Cell × Nat) :=
  (rows.zipIdx o).flatMap fun row => (List.finRange 4).map fun j => ((j, row.2), row.1 j)

theorem placesFrom_cons (o : Nat) (row : Row) (rows : List Row) :
    placesFrom o (row :: rows) =
      ((0, o), row 0) :: ((1, o), row 1) :: ((2, o), row 2) :: ((3, o), row 3) :: placesFrom (o + 1) rows := rfl

theorem mem_placesFrom {rows : List Row} {o : Nat} {x : Cell × Nat} :
    x ∈ placesFrom o rows ↔ ∃ i row, rows[i]? = some row ∧ x.1.2 = o + i ∧ x.2 = row x.1.1 := by
  induction rows generalizing o with
  | nil => simp [placesFrom]
  | cons row rows ih =>
    rw [placesFrom_cons]
    simp only [List.mem_cons, ih]
    constructor
    · rintro (rfl | rfl | rfl | rfl | ⟨i, r, h1, h2, h3⟩)
      · exact ⟨0, row, rfl, rfl, rfl⟩
      · exact ⟨0, row, rfl, rfl, rfl⟩
      · exact ⟨0, row, rfl, rfl, rfl⟩
      · exact ⟨0, row, rfl, rfl, rfl⟩
      · exact ⟨i + 1, r, h1, by omega, h3⟩
    · rintro ⟨i, r, h1, h2, h3⟩
      cases i with
      | zero =>
        obtain ⟨⟨j, k⟩, v⟩ := x
        simp only [List.getElem?_cons_zero, Option.some.injEq] at h1
        simp only [Nat.add_zero] at h2 h3
        subst h1 h2 h3
        fin_cases j <;> simp
      | succ i => exact .inr (.inr (.inr (.inr ⟨i, r, h1, by omega, h3⟩)))

theorem places_nodup (rows : List Row) (o : Nat) : ((placesFrom o rows).map (·.1)).Nodup := by
  induction rows generalizing o with
  | nil => simp [placesFrom]
  | cons row rows ih =>
    rw [placesFrom_cons]
    have hlt : ∀ j : Fin 4, (j, o) ∉ (placesFrom (o + 1) rows).map (·.1) := by
      intro j hj
      obtain ⟨x, hx, he⟩ := List.mem_map.1 hj
      obtain ⟨i, r, -, h2, -⟩ := mem_placesFrom.1 hx
      rw [he] at h2
      simp only at h2
      omega
    simp only [List.map_cons, List.nodup_cons, List.mem_cons, hlt, ih, and_true, or_false]
    simp

namespace Builder

/-- The places of the trace with their variables. -/
def places (c : Builder F) : List (Cell × Nat) := placesFrom 1 c.rows

theorem cells_places (c : Builder F) : cells c.placed = c.places := cells_eq c

theorem mem_places {c : Builder F} {x : Cell × Nat} : x ∈ c.places ↔ c.at? x.1.1 x.1.2 = some x.2 := by
  rw [places, mem_placesFrom, at?]
  constructor
  · rintro ⟨i, row, h1, h2, h3⟩
    rw [if_neg (by omega), h2, Nat.add_sub_cancel_left, h1, h3]; rfl
  · intro h
    by_cases h0 : x.1.2 = 0
    · rw [if_pos h0] at h; cases h
    · rw [if_neg h0] at h
      obtain ⟨row, h1, h2⟩ := Option.map_eq_some_iff.1 h
      exact ⟨x.1.2 - 1, row, h1, by omega, h2.symm⟩

/-- The places of a real variable, in the order of the trace. -/
def cycle (c : Builder F) (k : Nat) : List Cell := (c.places.filter fun x => c.real x.2 = k).map (·.1)

end Builder

/-! ## Filling the trace -/

theorem populateCell_ok {c : Builder F} {n : Nat} {st st' : Trace F} {x : Cell × Nat} (h : populateCell c n st x = .ok st') :
    c.realIndex[x.2]? = some (c.real x.2) ∧ x.1.2 < n ∧ c.real x.2 < c.vars.length ∧
    (∃ v, c.vars[c.real x.2]? = some v ∧ st'.wires = Function.update st.wires x.1 v) ∧
    ∃ cyc, st.cycles[c.real x.2]? = some cyc ∧ st'.cycles = st.cycles.set (c.real x.2) (cyc ++ [x.1]) := by
  rw [populateCell] at h
  cases h1 : index c.realIndex x.2 with
  | error e => rw [h1] at h; cases h
  | ok real =>
    rw [h1] at h
    have hreal : c.real x.2 = real := by rw [Builder.real, List.getD_eq_getElem?_getD, getElem_of_index h1]; rfl
    by_cases h2 : c.vars.length ≤ x.2
    · simp only [h2, if_true, bind, Except.bind, throw, throwThe, MonadExceptOf.throw] at h; cases h
    by_cases h3 : n ≤ x.1.2
    · simp only [h2, h3, if_true, if_false, bind, Except.bind, throw, throwThe, MonadExceptOf.throw, pure, Except.pure] at h
      cases h
    cases h4 : index c.vars real with
    | error e =>
      simp only [h2, h3, h4, if_false, bind, Except.bind, pure, Except.pure] at h
      cases h
    | ok v =>
      cases h5 : index st.cycles real with
      | error e =>
        simp only [h2, h3, h4, h5, if_false, bind, Except.bind, pure, Except.pure] at h
        cases h
      | ok cyc =>
        simp only [h2, h3, h4, h5, if_false, bind, Except.bind, pure, Except.pure] at h
        have := Except.ok.inj h
        rw [hreal, ← this]
        have hv := getElem_of_index h4
        exact ⟨getElem_of_index h1, by omega, (List.getElem?_eq_some_iff.1 hv).1, ⟨v, hv, rfl⟩, ⟨cyc, getElem_of_index h5, rfl⟩⟩

theorem populateCells_ok {c : Builder F} {n : Nat} (l : List (Cell × Nat)) {st st' : Trace F} (hn : (l.map (·.1)).Nodup)
    (h : l.foldlM (populateCell c n) st = .ok st') :
    (∀ x ∈ l, c.realIndex[x.2]? = some (c.real x.2) ∧ x.1.2 < n ∧ c.real x.2 < c.vars.length ∧
      c.vars[c.real x.2]? = some (st'.wires x.1)) ∧ (∀ y, y ∉ l.map (·.1) → st'.wires y = st.wires y) ∧
    st'.cycles.length = st.cycles.length ∧ ∀ k cyc, st.cycles[k]? = some cyc →
      st'.cycles[k]? = some (cyc ++ (l.filter fun x => c.real x.2 = k).map (·.1)) := by
  induction l generalizing st with
  | nil =>
    cases h
    exact ⟨by simp, fun _ _ => rfl, rfl, fun k cyc hk => by simpa using hk⟩
  | cons x l ih =>
    rw [List.foldlM_cons] at h
    cases h1 : populateCell c n st x with
    | error e => rw [h1] at h; cases h
    | ok st1 =>
      rw [h1] at h
      obtain ⟨a1, a2, a3, ⟨v, a4, a5⟩, cyc, a6, a7⟩ := populateCell_ok h1
      rw [List.map_cons, List.nodup_cons] at hn
      obtain ⟨b1, b2, b3, b4⟩ := ih hn.2 h
      refine ⟨?_, ?_, ?_, ?_⟩
      · intro y hy
        rcases List.mem_cons.1 hy with rfl | hy
        · refine ⟨a1, a2, a3, ?_⟩
          rw [b2 _ hn.1, a5, Function.update_self, a4]
        · exact b1 y hy
      · intro y hy
        rw [List.map_cons, List.mem_cons, not_or] at hy
        rw [b2 y hy.2, a5, Function.update_of_ne hy.1]
      · rw [b3, a7, List.length_set]
      · intro k cyc' hk
        by_cases hk' : c.real x.2 = k
        · subst hk'
          rw [hk] at a6
          cases a6
          rw [b4 _ (cyc ++ [x.1]) (by
            rw [a7, List.getElem?_set_self (List.getElem?_eq_some_iff.1 hk).1])]
          rw [List.filter_cons_of_pos (by simp), List.map_cons, List.append_assoc, List.singleton_append]
        · rw [b4 k cyc' (by rw [a7, List.getElem?_set_ne hk', hk]), List.filter_cons_of_neg (by simpa using hk')]

theorem populate_ok [Zero F] {c : Builder F} {n : Nat} {t : Trace F} (h : populate c n = .ok t) :
    (∀ j r v, c.at? j r = some v → c.realIndex[v]? = some (c.real v) ∧ r < n ∧ c.real v < c.vars.length ∧
      c.vars[c.real v]? = some (t.wires (j, r))) ∧
    t.cycles = (List.range c.vars.length).map c.cycle := by
  rw [populate, Builder.cells_places] at h
  obtain ⟨h1, -, h3, h4⟩ := populateCells_ok c.places (places_nodup _ _) h
  refine ⟨fun j r v hv => h1 ((j, r), v) (Builder.mem_places.2 hv), ?_⟩
  refine List.ext_getElem? fun k => ?_
  by_cases hk : k < c.vars.length
  · rw [h4 k [] (by simp [hk])]
    simp [hk, Builder.cycle]
  · rw [List.getElem?_eq_none (by rw [h3, List.length_replicate]; omega), List.getElem?_eq_none (by simp; omega)]

end Verif.Honk
