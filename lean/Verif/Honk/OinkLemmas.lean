import Verif.Honk.PermLemmas

/-!
# The permutation argument of UltraHonk
-/

namespace Verif.Honk

variable {F : Type}

/-! ## The proving key -/

theorem rows_le_dyadic (c : Builder F) : c.rows.length + 5 ≤ c.dyadicSize := by
  have hlen : (c.blocks.map List.length).sum = c.rows.length := by rw [Builder.rows_eq, List.length_flatten]
  rw [Builder.dyadicSize, hlen]
  generalize hg : 4 + 1 + max c.tablesSize c.rows.length = g
  have h1 : c.rows.length + 5 ≤ g := by rw [← hg]; have := le_max_right c.tablesSize c.rows.length; omega
  split_ifs with h
  · exact h1.trans (Nat.lt_pow_succ_log_self (by norm_num) g).le
  · rw [ne_eq, not_not] at h
    omega

/-- What the key contains. -/
structure KeyFacts [Ring F] (c : Builder F) (key : Key F) (s d : Cell → Target) : Prop where
  size : key.size = c.dyadicSize
  small : key.size < separator
  final : key.finalActive = c.finalActive
  idxs : key.active.idxs = List.range' 1 c.rows.length
  ranges : key.active.ranges.IsChain fun r s => r.2 = s.1
  first : key.lagrangeFirst = Function.update (fun _ => 0) 0 1
  last : key.lagrangeLast = Function.update (fun _ => 0) c.finalActive 1
  sigma : ∀ j i, key.sigma j i = if i ∈ List.range' 1 c.rows.length then sigmaValue c s (j, i) else 0
  id : ∀ j i, key.id j i = if i ∈ List.range' 1 c.rows.length then (d (j, i)).value else 0
  sigOk : ∀ k ∈ c.used, SigOk s (c.tauOf (c.tag k)) (c.cycle k)
  idOk : ∀ k ∈ c.used, IdOk d (c.tag k) (c.cycle k)
  wires : ∀ j r v, c.at? j r = some v → c.vars[c.real v]? = some (key.wires j r)
  publics : key.publicInputs = (List.range c.inputs.length).map fun i => key.wires 1 (i + 1)
  offset : key.publicOffset = 1

theorem createKey_ok [Ring F] {c : Builder F} {key : Key F} (h : createKey c = .ok key) : ∃ s d, KeyFacts c key s d := by
  rw [createKey] at h
  obtain ⟨a, ha, hidx, hr⟩ := activeRegion_ok c
  simp only [ha, bind, Except.bind] at h
  cases ht : populate c c.dyadicSize with
  | error e => rw [ht] at h; cases h
  | ok t =>
    obtain ⟨p1, p2⟩ := populate_ok ht
    simp only [ht] at h
    cases hm : permutationMapping c t.cycles with
    | error e => rw [hm] at h; cases h
    | ok m' =>
      simp only [hm] at h
      rw [permutationMapping] at hm
      cases hm1 : t.cycles.zipIdx.foldlM (addCycle c) Mapping.new with
      | error e => rw [hm1] at hm; cases hm
      | ok m =>
        rw [hm1] at hm
        have hm' : addPublic c m = m' := Except.ok.inj hm
        by_cases hsmall : c.dyadicSize < separator
        swap
        · simp only [permutationColumns, if_neg hsmall] at h; cases h
        simp only [permutationColumns, if_pos hsmall] at h
        by_cases hfin : c.dyadicSize ≤ c.finalActive
        · simp only [hfin, if_true, throw, throwThe, MonadExceptOf.throw] at h; cases h
        simp only [hfin, if_false, pure, Except.pure] at h
        have h := (Except.ok.inj h).symm
        have hz : t.cycles.zipIdx = (List.range c.vars.length).map fun k => (c.cycle k, k) := by
          rw [p2]
          refine List.ext_getElem (by simp) fun i h1 h2 => ?_
          simp
        have hlt : ∀ x ∈ c.places, c.real x.2 < c.vars.length := fun x hx => (p1 _ _ _ (Builder.mem_places.1 hx)).2.2.1
        have hfl : (t.cycles.zipIdx.flatMap (·.1)).Nodup := by
          rw [hz, List.flatMap_map]
          exact (Builder.cycles_perm List.nodup_range fun x hx => List.mem_range.2 (hlt x hx)).nodup_iff.2 (places_nodup _ _)
        obtain ⟨q1, -⟩ := addCycles_ok t.cycles.zipIdx hm1 hfl (fun _ _ => rfl) (fun _ _ => rfl)
        have hmem : ∀ k ∈ c.used, (c.cycle k, k) ∈ t.cycles.zipIdx := by
          intro k hk
          obtain ⟨x, hx, rfl⟩ := Builder.mem_used.1 hk
          rw [hz]
          exact List.mem_map.2 ⟨_, List.mem_range.2 (hlt x hx), rfl⟩
        refine ⟨m.sigmas, m.ids, ?_⟩
        subst h
        refine ⟨rfl, hsmall, rfl, hidx, hr, rfl, rfl, ?_, ?_, fun k hk => (q1 _ (hmem k hk)).1, fun k hk => (q1 _ (hmem k hk)).2,
          fun j r v hv => (p1 j r v hv).2.2.2, ?_, rfl⟩
        · intro j i
          simp only [hidx, ← hm', addPublic_sigmas, sigmaValue]
        · intro j i
          simp only [hidx, ← hm', addPublic_ids]
        · simp only [Builder.publicOffset_eq, Builder.publicBlock, List.length_map]

/-! ## The copy constraints and the lists -/

section Assigned

variable [Field F] {c : Builder F} {s d : Cell → Target} {w : Fin 4 → Nat → F} {pub : List F}

/-- The wires as a function of the place. -/
def onCells (w : Fin 4 → Nat → F) (x : Cell) : F := w x.1 x.2

/-- The public input of a row. -/
def pubAt (pub : List F) (r : Nat) : F := pub.getD (r - 1) 0

/-- The value of the first place of a cycle. -/
def headValue (w : Cell → F) (p : Nat → F) (l : List Place) : F := (l.head?.map (value w p)).getD 0

theorem mem_ext_inl {l : List Cell} {x : Cell} : Sum.inl x ∈ ext c l ↔ x ∈ l := by
  rw [ext, List.mem_flatMap]
  constructor
  · rintro ⟨y, hy, hm⟩
    split_ifs at hm
    · simp at hm; rwa [hm]
    · simp at hm; rwa [hm]
  · intro hx
    refine ⟨x, hx, ?_⟩
    split_ifs <;> simp

theorem mem_ext_inr {l : List Cell} {r : Nat} : Sum.inr r ∈ ext c l ↔ ((0 : Fin 4), r) ∈ l ∧ IsPub c (0, r) := by
  rw [ext, List.mem_flatMap]
  constructor
  · rintro ⟨y, hy, hm⟩
    split_ifs at hm with hp
    · simp only [List.mem_cons, reduceCtorEq, Sum.inr.injEq, List.not_mem_nil, or_false, false_or] at hm
      have : y = (0, r) := Prod.ext hp.1 hm.symm
      exact ⟨this ▸ hy, this ▸ hp⟩
    · simp at hm
  · rintro ⟨h1, h2⟩
    exact ⟨_, h1, by rw [if_pos h2]; simp⟩

theorem at_public {i : Nat} {v : Nat} (h : c.inputs[i]? = some v) : c.at? 0 (i + 1) = some v := by
  have hi : i < c.inputs.length := (List.getElem?_eq_some_iff.1 h).1
  rw [Builder.at?, if_neg (by omega), Nat.add_sub_cancel, Builder.rows, List.getElem?_append_left (by simpa using hi),
    List.getElem?_map, h]
  rfl

theorem circuitCycles_ne (y : Cycle Place F) (hy : y ∈ circuitCycles c) : y.places ≠ [] := by
  obtain ⟨k, hk, rfl⟩ := List.mem_map.1 hy
  obtain ⟨x, hx⟩ := List.exists_mem_of_ne_nil _ (Builder.cycle_ne_nil hk)
  exact List.ne_nil_of_mem (mem_ext_inl.2 hx)

theorem headValue_mem {wc : Cell → F} {p : Nat → F} {l : List Place} {v : F} (hl : l ≠ []) (h : ∀ y ∈ l, value wc p y = v) :
    headValue wc p l = v := by
  obtain ⟨e, es, rfl⟩ := List.exists_cons_of_ne_nil hl
  exact h e (by simp)

/-- The copy constraints make the cycles constant. -/
theorem cycle_const {val : Nat → F} (h : Assigned c w pub val) {k : Nat} : ∀ y ∈ ext c (c.cycle k),
    value (onCells w) (pubAt pub) y = val k := by
  intro y hy
  cases y with
  | inl x =>
    obtain ⟨v, h1, h2⟩ := Builder.mem_cycle.1 (mem_ext_inl.1 hy)
    show w x.1 x.2 = _
    rw [h.wires _ _ _ h1, h2]
  | inr r =>
    obtain ⟨h1, h2⟩ := mem_ext_inr.1 hy
    obtain ⟨v, h3, h4⟩ := Builder.mem_cycle.1 h1
    have hr1 : 1 ≤ r := h2.2.1
    have hr2 : r ≤ c.inputs.length := h2.2.2
    have hv : c.inputs[r - 1]? = some (c.inputs[r - 1]'(by omega)) := List.getElem?_eq_getElem _
    have ha := at_public hv
    rw [Nat.sub_add_cancel hr1] at ha
    have hv' : v = c.inputs[r - 1]'(by omega) := Option.some.inj (h3.symm.trans ha)
    show pubAt pub r = _
    rw [pubAt, ← h.publics, List.getD_eq_getElem?_getD, List.getElem?_map, hv]
    show val (c.real _) = _
    rw [← hv', h4]

/-- If the copy constraints hold, the two lists are the same up to order. -/
theorem perm_of_assigned {val : Nat → F} (h : Assigned c w pub val) (hs : ∀ k ∈ c.used, SigOk s (c.tauOf (c.tag k)) (c.cycle k))
    (hd : ∀ k ∈ c.used, IdOk d (c.tag k) (c.cycle k)) :
    (idList c (onCells w) (pubAt pub) fun x => (d x).value).Perm (sigmaList c (onCells w) (pubAt pub) (sigmaValue c s)) := by
  refine (starts_idList hd).symm.trans (List.Perm.trans ?_ (ends_sigmaList hs))
  refine (perm_iff_tags circuitCycles_ne (fun y => headValue (onCells w) (pubAt pub) y.places) ?_).2 ?_
  · intro y hy z hz
    obtain ⟨k, hk, rfl⟩ := List.mem_map.1 hy
    rw [headValue_mem (circuitCycles_ne _ hy) (cycle_const h)]
    exact cycle_const h z hz
  · have hmap : ∀ g : Cycle Place F → F, ∀ g' : Nat → Nat, (∀ k, g ⟨ext c (c.cycle k), tagName (c.tag k),
        tagName (c.tauOf (c.tag k))⟩ = tagName (g' k)) →
        ((circuitCycles c).map fun y => (headValue (onCells w) (pubAt pub) y.places, g y)) =
          (c.used.map fun k => (val k, g' k)).map fun x => (x.1, (tagName x.2 : F)) := by
      intro g g' hg
      rw [circuitCycles, List.map_map, List.map_map]
      refine List.map_congr_left fun k hk => ?_
      simp only [Function.comp_apply]
      rw [headValue_mem (circuitCycles_ne _ (List.mem_map.2 ⟨k, hk, rfl⟩)) (cycle_const h), hg]
    rw [hmap (fun y => y.tag) c.tag fun _ => rfl, hmap (fun y => y.image) (fun k => c.tauOf (c.tag k)) fun _ => rfl]
    exact h.tags.map _

/-- Numbers below the bound are different. -/
theorem Distinct.inj {K : Nat} (h : Distinct F K) {a b : Nat} (ha : a < K) (hb : b < K) (e : (a : F) = (b : F)) : a = b :=
  h a ha b hb e

theorem Distinct.ne_neg {K : Nat} (h : Distinct F K) {a b : Nat} (hab : a + b < K) (hb : 0 < b) : (a : F) ≠ -(b : F) := by
  intro e
  have : ((a + b : Nat) : F) = ((0 : Nat) : F) := by rw [Nat.cast_add, e]; simp
  have := h.inj hab (by omega) this
  omega

/-- If the two lists are the same up to order, the copy constraints hold. -/
theorem assigned_of_perm {T : Nat} (hF : Distinct F (5 * separator + T)) (hrows : c.rows.length < separator)
    (htags : ∀ k ∈ c.used, c.tag k < T ∧ c.tauOf (c.tag k) < T) (hpub : pub.length = c.inputs.length)
    (hs : ∀ k ∈ c.used, SigOk s (c.tauOf (c.tag k)) (c.cycle k)) (hd : ∀ k ∈ c.used, IdOk d (c.tag k) (c.cycle k))
    (h : (idList c (onCells w) (pubAt pub) fun x => (d x).value).Perm
      (sigmaList c (onCells w) (pubAt pub) (sigmaValue c s))) : ∃ val, Assigned c w pub val := by
  have hp := (starts_idList (w := onCells w) (p := pubAt pub) hd).trans (h.trans (ends_sigmaList hs).symm)
  -- the rows of the places
  have hcell : ∀ k, ∀ x, (Sum.inl x : Place) ∈ ext c (c.cycle k) → x.2 < separator := by
    intro k x hx
    obtain ⟨v, h1, -⟩ := Builder.mem_cycle.1 (mem_ext_inl.1 hx)
    have : x ∈ c.places.map (·.1) := List.mem_map.2 ⟨(x, v), Builder.mem_places.2 h1, rfl⟩
    have := (Builder.mem_places_fst.1 this).2
    omega
  have hrow : ∀ k, ∀ r, (Sum.inr r : Place) ∈ ext c (c.cycle k) → r < separator := by
    intro k r hr
    have := (mem_ext_inr.1 hr).2.2.2
    have := Builder.inputs_le (c := c)
    simp only at *
    omega
  have hle : ∀ j : Fin 4, separator * j.1 ≤ 3 * separator := fun j => by
    have := Nat.mul_le_mul_left separator (show j.1 ≤ 3 by omega); omega
  have hinj : ∀ y ∈ circuitCycles c, ∀ a ∈ y.places, ∀ z ∈ circuitCycles c, ∀ b ∈ z.places, (name a : F) = name b → a = b := by
    intro y hy a ha z hz b hb e
    obtain ⟨k, hk, rfl⟩ := List.mem_map.1 hy
    obtain ⟨l, hl, rfl⟩ := List.mem_map.1 hz
    cases a with
    | inl a =>
      have h1 := hcell k a ha
      have h2 := hle a.1
      cases b with
      | inl b =>
        have h3 := hcell l b hb
        have h4 := hle b.1
        have e := hF.inj (by omega) (by omega) e
        have hdiv := congrArg (· / separator) e
        simp only [Nat.add_mul_div_left _ _ (show 0 < separator by norm_num [separator]), Nat.div_eq_of_lt h1,
          Nat.div_eq_of_lt h3, Nat.zero_add] at hdiv
        rw [hdiv] at e
        exact congrArg Sum.inl (Prod.ext (Fin.ext hdiv) (Nat.add_right_cancel e))
      | inr b =>
        have h3 := hrow l b hb
        exact absurd e (hF.ne_neg (by omega) (by omega))
    | inr a =>
      have h1 := hrow k a ha
      cases b with
      | inl b =>
        have h3 := hcell l b hb
        have h4 := hle b.1
        exact absurd e.symm (hF.ne_neg (by omega) (by omega))
      | inr b =>
        have h3 := hrow l b hb
        have e := hF.inj (by omega) (by omega) (neg_injective e)
        exact congrArg Sum.inr (by omega)
  have htag : ∀ y ∈ circuitCycles c, ∀ a ∈ y.places, ∀ z ∈ circuitCycles c, (name a : F) ≠ z.tag := by
    intro y hy a ha z hz e
    obtain ⟨k, hk, rfl⟩ := List.mem_map.1 hy
    obtain ⟨l, hl, rfl⟩ := List.mem_map.1 hz
    have ht := (htags l hl).1
    cases a with
    | inl a =>
      have h1 := hcell k a ha
      have h2 := hle a.1
      have := hF.inj (by omega) (by omega) e
      omega
    | inr a =>
      have h1 := hrow k a ha
      exact absurd e.symm (hF.ne_neg (by omega) (by omega))
  have hconst : ∀ y ∈ circuitCycles c, ∀ z ∈ y.places, value (onCells w) (pubAt pub) z =
      headValue (onCells w) (pubAt pub) y.places := by
    intro y hy z hz
    obtain ⟨e, es, he⟩ := List.exists_cons_of_ne_nil (circuitCycles_ne y hy)
    rw [eq_head_of_chain (const_of_perm hp hinj htag hy) he z hz, he]
    rfl
  have hk : ∀ k ∈ c.used, ∀ z ∈ ext c (c.cycle k), value (onCells w) (pubAt pub) z =
      headValue (onCells w) (pubAt pub) (ext c (c.cycle k)) := fun k hk z hz => hconst _ (List.mem_map.2 ⟨k, hk, rfl⟩) z hz
  refine ⟨fun k => headValue (onCells w) (pubAt pub) (ext c (c.cycle k)), ⟨?_, ?_, ?_⟩⟩
  · intro j r v hv
    exact hk _ (Builder.mem_used.2 ⟨((j, r), v), Builder.mem_places.2 hv, rfl⟩) (.inl (j, r))
      (mem_ext_inl.2 (Builder.mem_cycle.2 ⟨v, hv, rfl⟩))
  · refine List.ext_getElem (by rw [List.length_map, hpub]) fun i h1 h2 => ?_
    rw [List.getElem_map]
    have hi : i < c.inputs.length := by simpa using h1
    have hat := at_public (List.getElem?_eq_getElem hi)
    have hm : ((0 : Fin 4), i + 1) ∈ c.cycle (c.real c.inputs[i]) := Builder.mem_cycle.2 ⟨_, hat, rfl⟩
    have := hk _ (Builder.mem_used.2 ⟨((0, i + 1), _), Builder.mem_places.2 hat, rfl⟩) (.inr (i + 1))
      (mem_ext_inr.2 ⟨hm, rfl, by simp, hi⟩)
    rw [← this]
    show pubAt pub (i + 1) = _
    rw [pubAt, Nat.add_sub_cancel, List.getD_eq_getElem?_getD, List.getElem?_eq_getElem h2]
    rfl
  · have hperm := (perm_iff_tags circuitCycles_ne _ hconst).1 hp
    have hinv : ∃ g : F → Nat, ∀ t < T, g (tagName t) = t := by
      classical
      refine ⟨fun y => if h : ∃ t, t < T ∧ (tagName t : F) = y then h.choose else 0, fun t ht => ?_⟩
      have hex : ∃ t', t' < T ∧ (tagName t' : F) = tagName t := ⟨t, ht, rfl⟩
      show (if h : ∃ t', t' < T ∧ (tagName t' : F) = tagName t then h.choose else 0) = t
      rw [dif_pos hex]
      have h1 := hex.choose_spec.1
      have := hF.inj (by omega) (by omega) hex.choose_spec.2
      omega
    obtain ⟨g, hg⟩ := hinv
    have := hperm.map fun x => (x.1, g x.2)
    rw [circuitCycles, List.map_map, List.map_map, List.map_map, List.map_map] at this
    refine List.Perm.trans (List.Perm.of_eq ?_) (this.trans (List.Perm.of_eq ?_))
    · refine List.map_congr_left fun k hk => ?_
      simp only [Function.comp_apply, hg _ (htags k hk).1]
    · refine List.map_congr_left fun k hk => ?_
      simp only [Function.comp_apply, hg _ (htags k hk).2]

end Assigned

end Verif.Honk
