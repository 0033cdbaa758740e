import Verif.Honk.BuildFinal

/-!
# What the sorted lists of a circuit say
-/

namespace Verif.Honk.Draft

variable {F : Type} [Field F]

/-- The values satisfy the rows of the block `delta_range`. -/
def DeltaOk (w : Nat → F) (gs : List (Gate F)) : Prop :=
  ∀ i g g', gs[i]? = some g → gs[i + 1]? = some g' → g.qDelta = 1 →
    inRange (w (g.row 1) - w (g.row 0)) = 0 ∧ inRange (w (g.row 2) - w (g.row 1)) = 0 ∧ inRange (w (g.row 3) - w (g.row 2)) = 0 ∧
    inRange (w (g'.row 0) - w (g.row 3)) = 0

theorem inRange_zero {d : F} (h : inRange d = 0) : ∃ e : Nat, e ≤ 3 ∧ d = (e : F) := by
  rw [inRange] at h
  rcases mul_eq_zero.1 h with h | h
  · rcases mul_eq_zero.1 h with h | h
    · rcases mul_eq_zero.1 h with h | h
      · exact ⟨0, by norm_num, by simpa using h⟩
      · exact ⟨1, by norm_num, by simpa using sub_eq_zero.1 h⟩
    · exact ⟨2, by norm_num, by simpa using sub_eq_zero.1 h⟩
  · exact ⟨3, by norm_num, by simpa using sub_eq_zero.1 h⟩

omit [Field F] in
theorem chunks_get {l : List Nat} {i : Nat} (hi : i < l.length / 4) : (chunks l)[i]? = some fun j : Fin 4 => l.getD (4 * i + j) 0 := by
  simp [chunks, hi]

/-- Neighbours in a sorted list differ by at most three. -/
theorem sorted_steps {w : Nat → F} {gs : List (Gate F)} (hd : DeltaOk w gs) {vs : List Nat} {last : Row} (h4 : vs.length % 4 = 0)
    (hin : ((chunks vs).map deltaGate ++ [freeGate last]) <:+: gs) {t : Nat} (ht : t + 1 < vs.length) :
    ∃ e : Nat, e ≤ 3 ∧ w (vs.getD (t + 1) 0) - w (vs.getD t 0) = (e : F) := by
  obtain ⟨as, bs, rfl⟩ := hin
  have hlen : (chunks vs).length = vs.length / 4 := by simp [chunks]
  have hget : ∀ i < vs.length / 4, (as ++ ((chunks vs).map deltaGate ++ [freeGate last]) ++ bs)[as.length + i]? =
      some (deltaGate fun j : Fin 4 => vs.getD (4 * i + j) 0 : Gate F) := by
    intro i hi
    rw [List.append_assoc, List.getElem?_append_right (by omega), Nat.add_sub_cancel_left, List.append_assoc,
      List.getElem?_append_left (by simp [hlen, hi]), List.getElem?_map, chunks_get hi]
    rfl
  have hi : t / 4 < vs.length / 4 := by omega
  have hg := hget _ hi
  have hnext : ∃ g', (as ++ ((chunks vs).map deltaGate ++ [freeGate last]) ++ bs)[as.length + t / 4 + 1]? = some g' := by
    refine ⟨_, List.getElem?_eq_getElem ?_⟩
    simp [hlen]; omega
  obtain ⟨g', hg'⟩ := hnext
  obtain ⟨d0, d1, d2, d3⟩ := hd _ _ g' hg hg' rfl
  have hj : t = 4 * (t / 4) + t % 4 := by omega
  have hm : t % 4 < 4 := Nat.mod_lt _ (by norm_num)
  simp only [deltaGate, Fin.val_zero, Fin.val_one, Fin.val_two, Nat.add_zero, show ((3 : Fin 4) : Nat) = 3 from rfl] at d0 d1 d2 d3
  rcases (by omega : t % 4 = 0 ∨ t % 4 = 1 ∨ t % 4 = 2 ∨ t % 4 = 3) with h | h | h | h <;> rw [h] at hj
  · rw [hj]; exact inRange_zero d0
  · rw [hj]; exact inRange_zero d1
  · rw [hj]; exact inRange_zero d2
  · rw [hj]
    have hlt : t / 4 + 1 < vs.length / 4 := by omega
    rw [Nat.add_assoc, hget _ hlt] at hg'
    cases hg'
    have := inRange_zero d3
    simpa [deltaGate, Nat.mul_add] using this

/-- The values of a sorted list from zero to the bound are in the range. -/
theorem sorted_values {w : Nat → F} {gs : List (Gate F)} (hd : DeltaOk w gs) {vs : List Nat} {last : Row} (h4 : vs.length % 4 = 0)
    (hpos : 0 < vs.length) (hin : ((chunks vs).map deltaGate ++ [freeGate last]) <:+: gs) {N target : Nat} (hN : Distinct F N)
    (ht : target < N) (hl : 3 * vs.length < N) (h0 : w (vs.headD 0) = 0) (h1 : w (vs.getLastD 0) = (target : F)) {v : Nat} (hv : v ∈ vs) :
    ∃ k ≤ target, w v = (k : F) := by
  have hstep : ∀ t, ∃ e : Nat, e ≤ 3 ∧ (t + 1 < vs.length → w (vs.getD (t + 1) 0) - w (vs.getD t 0) = (e : F)) := by
    intro t
    by_cases ht : t + 1 < vs.length
    · obtain ⟨e, he, h⟩ := sorted_steps hd h4 hin ht
      exact ⟨e, he, fun _ => h⟩
    · exact ⟨0, by norm_num, fun h => absurd h ht⟩
  choose e he hs using hstep
  have hk : ∀ t < vs.length, w (vs.getD t 0) = ((∑ i ∈ Finset.range t, e i : Nat) : F) := by
    intro t
    induction t with
    | zero =>
      intro _
      rw [show vs.getD 0 0 = vs.headD 0 by cases vs <;> rfl, h0]; simp
    | succ t ih =>
      intro h
      rw [Finset.sum_range_succ, Nat.cast_add, ← ih (by omega), ← hs t h]; ring
  have hbound : ∀ t, ∑ i ∈ Finset.range t, e i ≤ 3 * t := by
    intro t
    refine (Finset.sum_le_card_nsmul _ _ 3 fun i _ => he i).trans ?_
    simp; omega
  have hlast : ∑ i ∈ Finset.range (vs.length - 1), e i = target := by
    refine hN _ ?_ _ ht ?_
    · have := hbound (vs.length - 1); omega
    · rw [← hk _ (by omega), ← h1]
      rw [List.getLastD_eq_getLast?, List.getLast?_eq_getElem?, List.getD_eq_getElem?_getD]
  obtain ⟨t, htl, rfl⟩ := List.getElem_of_mem hv
  refine ⟨∑ i ∈ Finset.range t, e i, ?_, ?_⟩
  · rw [← hlast]
    exact Finset.sum_le_sum_of_subset (Finset.range_subset_range.2 (by omega))
  · rw [← hk t htl, List.getD_eq_getElem?_getD, List.getElem?_eq_getElem htl]; rfl

/-! ## Counting -/

/-- The tag of a used variable belongs to a list. -/
theorem tag_cases {b s : Draft F} (hb : Inv b) (hf : Final b b.rangeLists s) {u : Nat} (hu : u < s.vars.length) :
    s.tg (s.rl u) = 0 ∨
    (∃ L ∈ b.rangeLists, s.tg (s.rl u) = L.tag ∧ s.rl u ∈ L.vars.map b.rl) ∨
    ∃ L ∈ b.rangeLists, s.tg (s.rl u) = L.tau ∧ b.vars.length ≤ s.rl u ∧ s.rl u < s.vars.length := by
  by_cases h : u < b.vars.length
  · rw [hf.rl_old u h, hf.tg_old _ (hb.real_lt u h)]
    by_cases h0 : b.tg (b.rl u) = 0
    · exact .inl h0
    · obtain ⟨L, hL, e, v', hv', e'⟩ := hb.tag_list u h h0
      exact .inr (.inl ⟨L, hL, e, List.mem_map.2 ⟨v', hv', e'⟩⟩)
  · rw [hf.rl_new u (not_lt.1 h) hu]
    obtain ⟨L, hL, e⟩ := hf.tg_new u (not_lt.1 h) hu
    exact .inr (.inr ⟨L, hL, e, not_lt.1 h, hu⟩)

theorem sublist_values {α β : Type} [DecidableEq β] {l : List α} {f : α → β} {g g' : α → Nat} (h : (l.map fun v => (f v, g v)).Perm (l.map fun v => (f v, g' v)))
    (t : Nat) : ((l.filter fun v => g v = t).map f).Perm ((l.filter fun v => g' v = t).map f) := by
  have := ((h.filter fun x => x.2 = t).map Prod.fst)
  simpa [List.filter_map, List.map_map, Function.comp_def] using this

theorem mem_used {c : Builder F} {v : Nat} : v ∈ c.used ↔ ∃ row ∈ c.rows, ∃ j, v = c.real (row j) := by
  simp only [Builder.used, List.mem_dedup, List.mem_flatMap, List.mem_map, List.mem_ofFn]
  constructor
  · rintro ⟨row, hrow, x, ⟨j, rfl⟩, rfl⟩; exact ⟨row, hrow, j, rfl⟩
  · rintro ⟨row, hrow, j, rfl⟩; exact ⟨row, hrow, _, ⟨j, rfl⟩, rfl⟩

/-- The circuit has the variables of the draft, and its rows. -/
structure Matches (s : Draft F) (c : Builder F) : Prop where
  real : ∀ v, c.real v = s.rl v
  tag : ∀ v, c.tag v = s.tg v
  tau : c.tau = s.tau
  delta : ∀ g ∈ s.delta, g.row ∈ c.rows
  valid : ∀ row ∈ c.rows, ∀ j, row j < s.vars.length

theorem range_lists [DecidableEq F] {b s : Draft F} (hb : Inv b) (hf : Final b b.rangeLists s) {c : Builder F} (hc : Matches s c) {val : Nat → F}
    (htags : (c.used.map fun v => (val v, c.tag v)).Perm (c.used.map fun v => (val v, c.tauOf (c.tag v))))
    (harith : ∀ g ∈ s.arith, g.qArith = 1 → gateValue (fun v => val (s.rl v)) g = 0) (hdelta : DeltaOk (fun v => val (s.rl v)) s.delta)
    (hD : Distinct F (3 * s.vars.length + 22)) {L : RangeList} (hL : L ∈ b.rangeLists) {v : Nat} (hv : v ∈ L.vars) :
    ∃ k ≤ L.target, val (s.rl v) = (k : F) := by
  obtain ⟨first, n, pad, g, g', last, hS⟩ := hf.lists L hL
  have hlist := hb.nums_le L hL
  have htau : ∀ l ∈ b.rangeLists, c.tauOf l.tag = l.tau ∧ c.tauOf l.tau = l.tag := by
    intro l hl
    obtain ⟨h1, h2⟩ := hb.tau l hl
    exact ⟨by rw [Builder.tauOf, hc.tau, hf.tau, h1]; rfl, by rw [Builder.tauOf, hc.tau, hf.tau, h2]; rfl⟩
  have htau0 : c.tauOf 0 = 0 := by rw [Builder.tauOf, hc.tau, hf.tau, hb.tau_zero]; rfl
  have hperm := sublist_values htags L.tau
  -- the variables with the tag of the list
  have hA : (c.used.filter fun v => c.tauOf (c.tag v) = L.tau) = c.used.filter fun v => c.tag v = L.tag := by
    refine List.filter_congr fun v hv => ?_
    obtain ⟨row, hrow, j, rfl⟩ := mem_used.1 hv
    rw [hc.tag, hc.real]
    refine decide_eq_decide.2 ?_
    rcases tag_cases hb hf (hc.valid row hrow j) with h | ⟨l, hl, h, -⟩ | ⟨l, hl, h, -⟩
    · rw [h, htau0]; constructor <;> intro <;> omega
    · rw [h, (htau l hl).1]
      constructor
      · intro e
        by_cases hne : l = L
        · rw [hne]
        · exact absurd (by rw [e]; simp) (hb.nums_disjoint hl hL hne (a := l.tau) (by simp))
      · intro e; rw [hb.tag_inj hl hL e]
    · rw [h, (htau l hl).2]
      exact ⟨fun e => absurd e (hb.tag_ne_tau hl hL), fun e => absurd e.symm (hb.tag_ne_tau hL hl)⟩
  rw [hA] at hperm
  -- the sorted variables
  have hmemB : ∀ u, u ∈ (c.used.filter fun v => c.tag v = L.tau) ↔ u ∈ List.range' first n := by
    intro u
    rw [List.mem_filter, decide_eq_true_iff, List.mem_range'_1]
    constructor
    · rintro ⟨hu, ht⟩
      obtain ⟨row, hrow, j, rfl⟩ := mem_used.1 hu
      rw [hc.tag, hc.real] at ht
      rw [hc.real]
      rcases tag_cases hb hf (hc.valid row hrow j) with h | ⟨l, hl, h, -⟩ | ⟨l, hl, h, h1, h2⟩
      · omega
      · exact absurd (h.symm.trans ht) (hb.tag_ne_tau hl hL)
      · exact (hS.tags _ h1 h2).1 ht
    · intro hu
      have hle := hS.bound
      have hold := hS.old
      have hr := hf.rl_new u (by omega) (by omega)
      refine ⟨mem_used.2 ?_, by rw [hc.tag]; exact (hS.tags u (by omega) (by omega)).2 hu⟩
      obtain ⟨row, hrow, j, hj⟩ := chunks_mem (l := sortedVars b.zeroIdx pad first n) (x := u)
        (by rw [sortedVars, List.length_append, List.length_replicate, List.length_range']; exact hS.four)
        (List.mem_append_right _ (List.mem_range'_1.2 hu))
      refine ⟨row, hc.delta (deltaGate row) (hS.delta.subset (List.mem_append_left _ (List.mem_map_of_mem hrow))), j, ?_⟩
      rw [hj, hc.real, hr]
  have hnodup : c.used.Nodup := List.nodup_dedup _
  have hB : (c.used.filter fun v => c.tag v = L.tau).Perm (List.range' first n) :=
    (List.perm_ext_iff_of_nodup (hnodup.filter _) List.nodup_range').2 hmemB
  have hlenA : (c.used.filter fun v => c.tag v = L.tag).length = n := by
    have := hperm.length_eq
    rw [List.length_map, List.length_map, hB.length_eq, List.length_range'] at this
    exact this.symm
  have hsub : (c.used.filter fun v => c.tag v = L.tag) ⊆ (L.vars.map b.rl).dedup := by
    intro u hu
    rw [List.mem_filter, decide_eq_true_iff] at hu
    obtain ⟨hu, ht⟩ := hu
    obtain ⟨row, hrow, j, rfl⟩ := mem_used.1 hu
    rw [hc.tag, hc.real] at ht
    rw [hc.real, List.mem_dedup]
    rcases tag_cases hb hf (hc.valid row hrow j) with h | ⟨l, hl, h, h1⟩ | ⟨l, hl, h, h1, h2⟩
    · omega
    · obtain rfl := hb.tag_inj hl hL (h.symm.trans ht); exact h1
    · exact absurd (ht.symm.trans h) (hb.tag_ne_tau hL hl)
  have hpA : (c.used.filter fun v => c.tag v = L.tag).Perm (L.vars.map b.rl).dedup :=
    ((hnodup.filter _).subperm hsub).perm_of_length_le (by rw [hlenA, hS.count])
  have hvb := (hb.list_tag L hL v hv).1
  have hin : val (s.rl v) ∈ (c.used.filter fun v => c.tag v = L.tag).map val :=
    List.mem_map_of_mem (hpA.mem_iff.2 (List.mem_dedup.2 (by rw [hf.rl_old v hvb]; exact List.mem_map_of_mem hv)))
  obtain ⟨u, hu, hval⟩ := List.mem_map.1 (hperm.mem_iff.2 hin)
  have hu := (hmemB u).1 hu
  have hu' := List.mem_range'_1.1 hu
  have hle := hS.bound
  have hold := hS.old
  have hpad := hS.padLe
  have hmore := hS.more
  have hr := hf.rl_new u (by omega) (by omega)
  have hsmall := hb.small L hL
  have hflen := hf.len
  have hlen : (sortedVars b.zeroIdx pad first n).length = pad + n := by
    rw [sortedVars, List.length_append, List.length_replicate, List.length_range']
  have h0 := harith g hS.mem hS.arith
  have h1 := harith g' hS.mem' hS.arith'
  rw [hS.value] at h0
  rw [hS.value', sub_eq_zero] at h1
  have := sorted_values hdelta (by rw [hlen]; exact hS.four) (by omega) hS.delta hD (by omega) (by omega) h0 h1
    (v := u) (List.mem_append_right _ hu)
  rwa [hr, hval] at this

end Verif.Honk.Draft
