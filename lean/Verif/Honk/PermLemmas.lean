import Verif.Honk.MappingLemmas

/-!
# The lists of values and names of the permutation argument
-/

namespace Verif.Honk

variable {F : Type}

theorem pubLinked_cons {c : Builder F} {e : Cell} {es : List Cell} (h : ¬ IsPub c e) (hs : PubLinked c es) :
    PubLinked c (e :: es) := ⟨fun h' => absurd h' h, hs⟩

theorem pubLinked_places (c : Builder F) (k : Nat) : ∀ (rows : List Row) (o : Nat),
    (∀ i row, rows[i]? = some row → o + i ≤ c.inputs.length → row 0 = row 1) →
    PubLinked c (((placesFrom o rows).filter fun x => c.real x.2 = k).map (·.1))
  | [], _, _ => trivial
  | row :: rows, o, h => by
    have ih := pubLinked_places c k rows (o + 1) fun i r hr hi => h (i + 1) r hr (by omega)
    rw [placesFrom_cons]
    have n1 : ¬ IsPub c (1, o) := fun h => absurd h.1 (by simp)
    have n2 : ¬ IsPub c (2, o) := fun h => absurd h.1 (by simp)
    have n3 : ¬ IsPub c (3, o) := fun h => absurd h.1 (by simp)
    have h3 : PubLinked c (((((3, o), row 3) :: placesFrom (o + 1) rows).filter fun x => c.real x.2 = k).map (·.1)) := by
      rw [List.filter_cons]; split_ifs
      · exact pubLinked_cons n3 ih
      · exact ih
    have h2 : PubLinked c
        (((((2, o), row 2) :: ((3, o), row 3) :: placesFrom (o + 1) rows).filter fun x => c.real x.2 = k).map (·.1)) := by
      rw [List.filter_cons]; split_ifs
      · exact pubLinked_cons n2 h3
      · exact h3
    have h1 : PubLinked c (((((1, o), row 1) :: ((2, o), row 2) :: ((3, o), row 3) :: placesFrom (o + 1) rows).filter
        fun x => c.real x.2 = k).map (·.1)) := by
      rw [List.filter_cons]; split_ifs
      · exact pubLinked_cons n1 h2
      · exact h2
    by_cases hk : c.real (row 0) = k
    · rw [List.filter_cons_of_pos (by simpa using hk)]
      refine ⟨fun hp => ?_, h1⟩
      have he := h 0 row rfl hp.2.2
      rw [List.filter_cons_of_pos (by simpa [← he] using hk)]
      rfl
    · rw [List.filter_cons_of_neg (by simpa using hk)]
      exact h1

theorem pubLinked_cycle (c : Builder F) (k : Nat) : PubLinked c (c.cycle k) := by
  refine pubLinked_places c k c.rows 1 fun i row h hi => ?_
  rw [Builder.rows, List.getElem?_append_left (by simp; omega), List.getElem?_map] at h
  obtain ⟨v, -, rfl⟩ := Option.map_eq_some_iff.1 h
  rfl

/-- Splitting a list by a function and joining the parts. -/
theorem perm_split {α : Type} (f : α → Nat) : ∀ (ks : List Nat) (l : List α), ks.Nodup → (∀ x ∈ l, f x ∈ ks) →
    (ks.flatMap fun k => l.filter fun x => f x = k).Perm l
  | [], l, _, h => by
    cases l with
    | nil => exact List.Perm.refl _
    | cons x l => exact absurd (h x (by simp)) (by simp)
  | k :: ks, l, hn, h => by
    rw [List.nodup_cons] at hn
    have ih := perm_split f ks (l.filter fun x => !decide (f x = k)) hn.2 fun x hx => by
      rw [List.mem_filter] at hx
      rcases List.mem_cons.1 (h x hx.1) with he | he
      · simp [he] at hx
      · exact he
    have e : (ks.flatMap fun k' => (l.filter fun x => !decide (f x = k)).filter fun x => f x = k') =
        ks.flatMap fun k' => l.filter fun x => f x = k' := by
      refine List.flatMap_congr fun k' hk' => ?_
      rw [List.filter_filter]
      refine List.filter_congr fun x _ => ?_
      have hne : k' ≠ k := fun he => hn.1 (he ▸ hk')
      by_cases hx : f x = k'
      · simp [hx, hne]
      · simp [hx]
    rw [e] at ih
    rw [List.flatMap_cons]
    exact (List.Perm.append_left _ ih).trans (List.filter_append_perm _ _)

namespace Builder

variable {c : Builder F}

theorem mem_used {k : Nat} : k ∈ c.used ↔ ∃ x ∈ c.places, c.real x.2 = k := by
  rw [used, List.mem_dedup, List.mem_flatMap]
  constructor
  · rintro ⟨row, hr, hk⟩
    obtain ⟨v, hv, rfl⟩ := List.mem_map.1 hk
    obtain ⟨j, rfl⟩ := List.mem_ofFn.1 hv
    obtain ⟨i, hi⟩ := List.mem_iff_getElem?.1 hr
    exact ⟨((j, 1 + i), row j), mem_placesFrom.2 ⟨i, row, hi, rfl, rfl⟩, rfl⟩
  · rintro ⟨x, hx, rfl⟩
    obtain ⟨i, row, h1, -, h3⟩ := mem_placesFrom.1 hx
    exact ⟨row, List.mem_iff_getElem?.2 ⟨i, h1⟩, List.mem_map.2 ⟨x.2, List.mem_ofFn.2 ⟨x.1.1, h3.symm⟩, rfl⟩⟩

theorem used_nodup : c.used.Nodup := List.nodup_dedup _

theorem mem_cycle {k : Nat} {x : Cell} : x ∈ c.cycle k ↔ ∃ v, c.at? x.1 x.2 = some v ∧ c.real v = k := by
  rw [cycle, List.mem_map]
  constructor
  · rintro ⟨y, hy, rfl⟩
    rw [List.mem_filter] at hy
    exact ⟨y.2, mem_places.1 hy.1, by simpa using hy.2⟩
  · rintro ⟨v, h1, h2⟩
    exact ⟨(x, v), List.mem_filter.2 ⟨mem_places.2 h1, by simpa using h2⟩, rfl⟩

theorem cycle_ne_nil {k : Nat} (hk : k ∈ c.used) : c.cycle k ≠ [] := by
  obtain ⟨x, hx, h⟩ := mem_used.1 hk
  exact List.ne_nil_of_mem (mem_cycle.2 ⟨x.2, mem_places.1 hx, h⟩)

/-- The places of the trace. -/
theorem cycles_perm {ks : List Nat} (hn : ks.Nodup) (h : ∀ x ∈ c.places, c.real x.2 ∈ ks) :
    (ks.flatMap c.cycle).Perm (c.places.map (·.1)) := by
  have := (perm_split (fun x : Cell × Nat => c.real x.2) ks c.places hn h).map (·.1)
  rwa [List.map_flatMap] at this

theorem used_perm : (c.used.flatMap c.cycle).Perm (c.places.map (·.1)) :=
  cycles_perm used_nodup fun x hx => mem_used.2 ⟨x, hx, rfl⟩

theorem placesFrom_fst (rows : List Row) (o : Nat) : (placesFrom o rows).map (·.1) =
    (List.range' o rows.length).flatMap fun r => [(0, r), (1, r), (2, r), (3, r)] := by
  induction rows generalizing o with
  | nil => rfl
  | cons row rows ih =>
    rw [placesFrom_cons, List.length_cons, List.range'_succ, List.flatMap_cons, ← ih]
    rfl

theorem places_fst : c.places.map (·.1) =
    (List.range' 1 c.rows.length).flatMap fun r => [((0 : Fin 4), r), (1, r), (2, r), (3, r)] := placesFrom_fst _ _

theorem mem_places_fst {x : Cell} : x ∈ c.places.map (·.1) ↔ 1 ≤ x.2 ∧ x.2 ≤ c.rows.length := by
  rw [places_fst, List.mem_flatMap]
  obtain ⟨j, r⟩ := x
  constructor
  · rintro ⟨r', h1, h2⟩
    rw [List.mem_range'_1] at h1
    have : r = r' := by
      simp only [List.mem_cons, Prod.mk.injEq, List.not_mem_nil, or_false] at h2
      rcases h2 with h | h | h | h <;> exact h.2
    subst this
    exact ⟨h1.1, by show r ≤ _; omega⟩
  · rintro ⟨h1, h2⟩
    refine ⟨r, List.mem_range'_1.2 ⟨h1, by simp only at h2; omega⟩, ?_⟩
    fin_cases j <;> simp

theorem inputs_le : c.inputs.length ≤ c.rows.length := by rw [rows, List.length_append, List.length_map]; omega

/-- The rows of the public inputs. -/
theorem pubs_perm : ((c.places.map (·.1)).filter fun x => IsPub c x).Perm
    ((List.range' 1 c.inputs.length).map fun r => ((0 : Fin 4), r)) := by
  refine (List.perm_ext_iff_of_nodup ((places_nodup _ _).filter _) ?_).2 fun x => ?_
  · refine List.Nodup.map (fun a b h => (Prod.mk.inj h).2) List.nodup_range'
  · rw [List.mem_filter, ← places, mem_places_fst, List.mem_map]
    have hl := inputs_le (c := c)
    constructor
    · rintro ⟨-, h⟩
      have h : IsPub c x := by simpa using h
      exact ⟨x.2, List.mem_range'_1.2 ⟨h.2.1, by have := h.2.2; omega⟩, Prod.ext h.1.symm rfl⟩
    · rintro ⟨r, hr, rfl⟩
      rw [List.mem_range'_1] at hr
      exact ⟨⟨hr.1, by show r ≤ _; omega⟩, decide_eq_true (show IsPub c (0, r) from ⟨rfl, hr.1, by show r ≤ _; omega⟩)⟩

end Builder

section Lists

variable [Ring F] {c : Builder F} {w : Cell → F} {p : Nat → F}

/-- The cycles of the circuit. -/
def circuitCycles (c : Builder F) : List (Cycle Place F) :=
  c.used.map fun k => ⟨ext c (c.cycle k), tagName (c.tag k), tagName (c.tauOf (c.tag k))⟩

/-- The values with the names of their places, and the public inputs with their names. -/
def idList (c : Builder F) (w : Cell → F) (p : Nat → F) (d : Cell → F) : List (F × F) :=
  (c.places.map (·.1)).map (fun x => (w x, d x)) ++
    (List.range' 1 c.inputs.length).map fun r => (p r, -((r + 1 : Nat) : F))

/-- The values with the names of the next places, and the public inputs with the names of their second places. -/
def sigmaList (c : Builder F) (w : Cell → F) (p : Nat → F) (s : Cell → F) : List (F × F) :=
  (c.places.map (·.1)).map (fun x => (w x, s x)) ++
    (List.range' 1 c.inputs.length).map fun r => (p r, ((separator + r : Nat) : F))

theorem flatMap_perm_congr {α β : Type} {f g : α → List β} : ∀ {l : List α}, (∀ x ∈ l, (f x).Perm (g x)) →
    (l.flatMap f).Perm (l.flatMap g)
  | [], _ => List.Perm.refl _
  | x :: l, h => by
    rw [List.flatMap_cons, List.flatMap_cons]
    exact (h x (by simp)).append (flatMap_perm_congr fun y hy => h y (List.mem_cons_of_mem _ hy))

omit [Ring F] in
theorem joined {g : Cell → F} {q : Nat → F} :
    (c.used.flatMap fun k => (c.cycle k).map (fun x => (w x, g x)) ++
      ((c.cycle k).filter fun x => IsPub c x).map fun x => (p x.2, q x.2)).Perm
    ((c.places.map (·.1)).map (fun x => (w x, g x)) ++ (List.range' 1 c.inputs.length).map fun r => (p r, q r)) := by
  refine (List.flatMap_append_perm _ _ _).symm.trans (List.Perm.append ?_ ?_)
  · rw [← List.map_flatMap]
    exact Builder.used_perm.map _
  · rw [← List.map_flatMap]
    have h1 : (c.used.flatMap fun k => (c.cycle k).filter fun x => IsPub c x) =
        (c.used.flatMap c.cycle).filter fun x => IsPub c x := (List.filter_flatMap ..).symm
    have h2 := ((Builder.used_perm (c := c)).filter fun x => IsPub c x).trans Builder.pubs_perm
    rw [← h1] at h2
    have := h2.map fun x : Cell => (p x.2, q x.2)
    rwa [List.map_map] at this

theorem starts_idList {d : Cell → Target} (hd : ∀ k ∈ c.used, IdOk d (c.tag k) (c.cycle k)) :
    ((circuitCycles c).flatMap fun y => starts (value w p) name y.tag y.places).Perm
      (idList c w p fun x => (d x).value) := by
  rw [circuitCycles, List.flatMap_map]
  exact (flatMap_perm_congr fun k hk => starts_ext (hd k hk)).trans (joined (q := fun r => -((r + 1 : Nat) : F)))

/-- The name that the column `sigma` has for a place. -/
def sigmaValue (c : Builder F) (s : Cell → Target) (x : Cell) : F :=
  Target.value (if IsPub c x then { s x with row := x.2, col := 0, isPublic := true } else s x)

theorem ends_sigmaList {s : Cell → Target} (hs : ∀ k ∈ c.used, SigOk s (c.tauOf (c.tag k)) (c.cycle k)) :
    ((circuitCycles c).flatMap fun y => ends (value w p) name y.image y.places).Perm
      (sigmaList c w p (sigmaValue c s)) := by
  rw [circuitCycles, List.flatMap_map]
  exact (flatMap_perm_congr fun k hk => ends_ext (pubLinked_cycle c k) (hs k hk)).trans
    (joined (q := fun r => ((separator + r : Nat) : F)))

end Lists

end Verif.Honk
