import Verif.Honk.BuildHonestSort

/-!
# Lemmas: the tags of an honest prover
-/

namespace Verif.Honk.Draft

variable {F : Type} [Field F] {toNat : F → Nat}

theorem perm_of_filters {α β : Type} [DecidableEq β] {l : List α} {f : α → β} {g g' : α → Nat}
    (h : ∀ t, ((l.filter fun v => g v = t).map f).Perm ((l.filter fun v => g' v = t).map f)) :
    (l.map fun v => (f v, g v)).Perm (l.map fun v => (f v, g' v)) := by
  rw [List.perm_iff_count]
  rintro ⟨x, t⟩
  have key : ∀ g : α → Nat, List.count (x, t) (l.map fun v => (f v, g v)) = List.count x ((l.filter fun v => g v = t).map f) := by
    intro g
    simp only [List.count, List.countP_map, List.countP_filter]
    refine List.countP_congr fun v _ => ?_
    simp
  rw [key g, key g', List.perm_iff_count.1 (h t) x]

/-- The values of the variables of a circuit, each with its tag, are those values with the tags that belong to them. -/
theorem tags_honest [DecidableEq F] {b s : Draft F} (hB : Honest toNat b [] none) (hF : HFinal toNat b b.rangeLists s) {c : Builder F} (hc : Matches s c)
    (harith : ∀ g ∈ s.arith, g.row ∈ c.rows) :
    (c.used.map fun v => (s.vars.getD v 0, c.tag v)).Perm (c.used.map fun v => (s.vars.getD v 0, c.tauOf (c.tag v))) := by
  have hb := hB.inv
  have hf := hF.fin
  have htau : ∀ l ∈ b.rangeLists, c.tauOf l.tag = l.tau ∧ c.tauOf l.tau = l.tag := by
    intro l hl
    obtain ⟨h1, h2⟩ := hb.tau l hl
    exact ⟨by rw [Builder.tauOf, hc.tau, hf.tau, h1]; rfl, by rw [Builder.tauOf, hc.tau, hf.tau, h2]; rfl⟩
  have htau0 : c.tauOf 0 = 0 := by rw [Builder.tauOf, hc.tau, hf.tau, hb.tau_zero]; rfl
  -- the tag of a variable in use
  have hcase : ∀ u ∈ c.used, c.tag u = 0 ∨ (∃ L ∈ b.rangeLists, c.tag u = L.tag ∧ u ∈ L.vars.map b.rl) ∨
      ∃ L ∈ b.rangeLists, c.tag u = L.tau ∧ b.vars.length ≤ u ∧ u < s.vars.length := by
    intro u hu
    obtain ⟨row, hrow, j, rfl⟩ := mem_used.1 hu
    rw [hc.tag, hc.real]
    exact tag_cases hb hf (hc.valid row hrow j)
  have hinj : ∀ l ∈ b.rangeLists, ∀ L ∈ b.rangeLists, l.tau = L.tau → l = L := by
    intro l hl L hL e
    by_contra hne
    exact absurd (by rw [e]; simp) (hb.nums_disjoint hl hL hne (a := l.tau) (by simp))
  have hA : ∀ L ∈ b.rangeLists, (c.used.filter fun v => c.tauOf (c.tag v) = L.tau) = c.used.filter fun v => c.tag v = L.tag := by
    intro L hL
    have hn := hb.nums_le L hL
    refine List.filter_congr fun v hv => decide_eq_decide.2 ?_
    rcases hcase v hv with h | ⟨l, hl, h, -⟩ | ⟨l, hl, h, -⟩
    · rw [h, htau0]; constructor <;> intro <;> omega
    · rw [h, (htau l hl).1]
      exact ⟨fun e => by rw [hinj l hl L hL e], fun e => by rw [hb.tag_inj hl hL e]⟩
    · rw [h, (htau l hl).2]
      exact ⟨fun e => absurd e (hb.tag_ne_tau hl hL), fun e => absurd e.symm (hb.tag_ne_tau hL hl)⟩
  have hA' : ∀ L ∈ b.rangeLists, (c.used.filter fun v => c.tauOf (c.tag v) = L.tag) = c.used.filter fun v => c.tag v = L.tau := by
    intro L hL
    have hn := hb.nums_le L hL
    refine List.filter_congr fun v hv => decide_eq_decide.2 ?_
    rcases hcase v hv with h | ⟨l, hl, h, -⟩ | ⟨l, hl, h, -⟩
    · rw [h, htau0]; constructor <;> intro <;> omega
    · rw [h, (htau l hl).1]
      exact ⟨fun e => absurd e.symm (hb.tag_ne_tau hL hl), fun e => absurd e (hb.tag_ne_tau hl hL)⟩
    · rw [h, (htau l hl).2]
      exact ⟨fun e => by rw [hb.tag_inj hl hL e], fun e => by rw [hinj l hl L hL e]⟩
  have hnodup : c.used.Nodup := List.nodup_dedup _
  -- the listed variables
  have hlist : ∀ L ∈ b.rangeLists, (c.used.filter fun v => c.tag v = L.tag).Perm L.vars.dedup := by
    intro L hL
    have hn := hb.nums_le L hL
    refine (List.perm_ext_iff_of_nodup (hnodup.filter _) (List.nodup_dedup _)).2 fun u => ?_
    rw [List.mem_filter, decide_eq_true_iff, List.mem_dedup]
    constructor
    · rintro ⟨hu, ht⟩
      rcases hcase u hu with h | ⟨l, hl, h, h1⟩ | ⟨l, hl, h, -⟩
      · omega
      · obtain rfl := hb.tag_inj hl hL (h.symm.trans ht)
        obtain ⟨v, hv, rfl⟩ := List.mem_map.1 h1
        rw [hB.ident v (hb.list_tag l hl v hv).1]; exact hv
      · exact absurd (ht.symm.trans h) (hb.tag_ne_tau hL hl)
    · intro hu
      obtain ⟨hlt, ht⟩ := hb.list_tag L hL u hu
      have hid := hB.ident u hlt
      rw [hid] at ht
      refine ⟨?_, by rw [hc.tag, hf.tg_old u hlt, ht]⟩
      rcases hB.placed L hL u hu with h | ⟨g, hg, j, hj⟩
      · cases h
      · refine mem_used.2 ⟨g.row, harith g (hf.arith.subset hg), j, ?_⟩
        rw [hj, hc.real, hf.rl_old u hlt, hid]
  -- the sorted variables
  have hsorted : ∀ L ∈ b.rangeLists, (c.used.filter fun v => c.tag v = L.tau).Perm
      ((List.range' b.vars.length (s.vars.length - b.vars.length)).filter fun u => s.tg u = L.tau) := by
    intro L hL
    have hn := hb.nums_le L hL
    obtain ⟨first, n, pad, g, g', last, hS⟩ := hf.lists L hL
    refine (List.perm_ext_iff_of_nodup (hnodup.filter _) ((List.nodup_range' ..).filter _)).2 fun u => ?_
    rw [List.mem_filter, List.mem_filter, decide_eq_true_iff, decide_eq_true_iff, List.mem_range'_1, hc.tag]
    constructor
    · rintro ⟨hu, ht⟩
      refine ⟨?_, ht⟩
      rw [← hc.tag] at ht
      rcases hcase u hu with h | ⟨l, hl, h, -⟩ | ⟨l, hl, h, h1, h2⟩
      · omega
      · exact absurd (h.symm.trans ht) (hb.tag_ne_tau hl hL)
      · omega
    · rintro ⟨hu, ht⟩
      refine ⟨mem_used.2 ?_, ht⟩
      have hin := (hS.tags u hu.1 (by omega)).1 ht
      obtain ⟨row, hrow, j, hj⟩ := chunks_mem (l := sortedVars b.zeroIdx pad first n) (x := u)
        (by rw [sortedVars, List.length_append, List.length_replicate, List.length_range']; exact hS.four)
        (List.mem_append_right _ (List.mem_range'_1.2 hin))
      refine ⟨row, hc.delta (deltaGate row) (hS.delta.subset (List.mem_append_left _ (List.mem_map_of_mem hrow))), j, ?_⟩
      rw [hj, hc.real, hf.rl_new u hu.1 (by omega)]
  have hV : ∀ L ∈ b.rangeLists, ((c.used.filter fun v => c.tag v = L.tau).map fun u => s.vars.getD u 0).Perm
      ((c.used.filter fun v => c.tag v = L.tag).map fun u => s.vars.getD u 0) := by
    intro L hL
    refine ((hsorted L hL).map _).trans ((hF.values L hL).trans (List.Perm.trans (List.Perm.of_eq ?_) ((hlist L hL).map _).symm))
    refine List.map_congr_left fun u hu => ?_
    have hlt := (hb.list_tag L hL u (List.mem_dedup.1 hu)).1
    have h1 := get_mono hF.vars (List.getElem?_eq_getElem hlt)
    rw [List.getD_eq_getElem?_getD, List.getD_eq_getElem?_getD, h1, List.getElem?_eq_getElem hlt]
  refine perm_of_filters fun t => ?_
  by_cases c1 : ∃ L ∈ b.rangeLists, t = L.tau
  · obtain ⟨L, hL, rfl⟩ := c1
    rw [hA L hL]; exact hV L hL
  by_cases c2 : ∃ L ∈ b.rangeLists, t = L.tag
  · obtain ⟨L, hL, rfl⟩ := c2
    rw [hA' L hL]; exact (hV L hL).symm
  refine List.Perm.of_eq (congrArg _ (List.filter_congr fun v hv => decide_eq_decide.2 ?_))
  rcases hcase v hv with h | ⟨l, hl, h, -⟩ | ⟨l, hl, h, -⟩
  · rw [h, htau0]
  · rw [h, (htau l hl).1]
    exact ⟨fun e => absurd ⟨l, hl, e.symm⟩ c2, fun e => absurd ⟨l, hl, e.symm⟩ c1⟩
  · rw [h, (htau l hl).2]
    exact ⟨fun e => absurd ⟨l, hl, e.symm⟩ c1, fun e => absurd ⟨l, hl, e.symm⟩ c2⟩

end Verif.Honk.Draft
