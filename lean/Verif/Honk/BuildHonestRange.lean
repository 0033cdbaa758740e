import Verif.Honk.BuildHonest

/-!
# Lemmas: range constraints of an honest prover
-/

namespace Verif.Honk.Draft

variable {F : Type} [Field F] {toNat : F → Nat}

theorem Honest.index_real {s : Draft F} {P : List Nat} {e : Option F} (h : Honest toNat s P e) {v : Nat} (hv : v < s.vars.length) :
    index s.real v = .ok v := by
  have := h.ident v hv
  rw [rl, List.getD_eq_getElem?_getD, List.getElem?_eq_getElem (h.inv.real_len ▸ hv)] at this
  rw [index_iff, List.getElem?_eq_getElem (h.inv.real_len ▸ hv)]
  exact congrArg some this

theorem Honest.index_tags {s : Draft F} {P : List Nat} {e : Option F} (h : Honest toNat s P e) {v : Nat} (hv : v < s.vars.length) :
    index s.tags v = .ok (s.tg v) := by
  rw [index_iff, tg, List.getD_eq_getElem?_getD, List.getElem?_eq_getElem (h.inv.tags_len ▸ hv)]; rfl

/-- The list of a bound is there. -/
theorem Honest.ensureRange (hT : Lifts toNat) {s : Draft F} {P : List Nat} (h : Honest toNat s P none) {target : Nat} (ht : target < 2 ^ 14) :
    ∃ s' list, s.ensureRange target = .ok s' ∧ Honest toNat s' P none ∧ Grows s s' ∧ s'.rangeLists.find? (·.target = target) = some list ∧
      ∀ v < s.vars.length, s'.tg v = s.tg v := by
  rw [Draft.ensureRange]
  cases hf : s.rangeLists.find? (·.target = target) with
  | some l => exact ⟨s, l, rfl, h, .refl s, hf, fun _ _ => rfl⟩
  | none =>
    have hne : ∀ x ∈ s.rangeLists, x.target ≠ target := fun x hx => by simpa using List.find?_eq_none.1 hf x hx
    obtain ⟨hi, he⟩ := withRange_inv h.inv hne
    set list : RangeList := ⟨target, s.tag + 1, s.tag + 2, List.range' s.vars.length (rangeValues target).length⟩ with hlist
    have hperm : (s.withRange target).rangeLists.Perm (list :: s.rangeLists) := insertRange_perm hne
    have hmem : list ∈ (s.withRange target).rangeLists := hperm.mem_iff.2 List.mem_cons_self
    have hvars : (s.withRange target).vars = s.vars ++ (rangeValues target).map Nat.cast := rfl
    have hpre : s.vars <+: (s.withRange target).vars := ⟨_, hvars.symm⟩
    have hnew : ∀ i k : Nat, (rangeValues target)[i]? = some k → (s.withRange target).vars[s.vars.length + i]? = some (k : F) := by
      intro i k hk
      rw [hvars, List.getElem?_append_right (by omega), Nat.add_sub_cancel_left, List.getElem?_map, hk]; rfl
    have hle : ∀ k ∈ rangeValues target, k ≤ target := by
      intro k hk
      simp only [rangeValues, List.mem_append, List.mem_map, List.mem_range, List.mem_singleton] at hk
      rcases hk with ⟨a, ha, rfl⟩ | rfl
      · omega
      · exact le_rfl
    have hpos : 0 < (rangeValues target).length := by simp [rangeValues]
    have hfind : ∃ l, (s.withRange target).rangeLists.find? (·.target = target) = some l := by
      rw [← Option.isSome_iff_exists, List.find?_isSome]
      exact ⟨list, hmem, by simp [hlist]⟩
    obtain ⟨l, hl⟩ := hfind
    refine ⟨s.withRange target, l, ?_, ?_, ?_, hl, fun v hv => withRange_tg h.inv target hv⟩
    · exact bind_ok.2 ⟨_, createRangeList_eq h.inv target, rfl⟩
    · refine ⟨hi, fun v hv => ?_, fun w hw => ?_, get_mono hpre h.zero, fun y i hy => get_mono hpre (h.consts y i hy), fun l hl => ?_, fun l hl v hv => ?_⟩
      · rw [withRange_length] at hv
        by_cases c : v < s.vars.length
        · rw [withRange_rl h.inv target c]; exact h.ident v c
        · exact withRange_rl_new h.inv target (not_lt.1 c) hv
      · refine (h.arith w (hw.mono hpre)).zeros _ fun g hg => ?_
        obtain ⟨row, -, rfl⟩ := List.mem_map.1 hg
        exact ⟨rfl, rfl⟩
      · rcases List.mem_cons.1 (hperm.mem_iff.1 hl) with rfl | hl
        · refine ⟨ht, fun v hv => ?_, fun k hk => ?_⟩
          · rw [hlist, List.mem_range'_1] at hv
            obtain ⟨i, rfl⟩ := Nat.exists_eq_add_of_le hv.1
            have hi : i < (rangeValues target).length := by omega
            refine ⟨_, hnew i _ (List.getElem?_eq_getElem hi), ?_⟩
            have := hle _ (List.getElem_mem hi)
            rw [hT.small _ (by omega)]; exact this
          · obtain ⟨i, hi, rfl⟩ := List.getElem_of_mem hk
            exact ⟨s.vars.length + i, by rw [hlist, List.mem_range'_1]; exact ⟨Nat.le_add_right _ _, Nat.add_lt_add_left hi _⟩, hnew i _ (List.getElem?_eq_getElem hi)⟩
        · obtain ⟨h1, h2, h3⟩ := h.lists l hl
          refine ⟨h1, fun v hv => ?_, fun k hk => ?_⟩
          · obtain ⟨x, hx, hxl⟩ := h2 v hv
            exact ⟨x, get_mono hpre hx, hxl⟩
          · obtain ⟨v, hv, e⟩ := h3 k hk
            exact ⟨v, hv, get_mono hpre e⟩
      · rcases List.mem_cons.1 (hperm.mem_iff.1 hl) with rfl | hl
        · right
          obtain ⟨row, hrow, j, hj⟩ := chunks_mem (l := list.vars ++ List.replicate ((4 - list.vars.length % 4) % 4) s.zeroIdx) (x := v)
            (by rw [List.length_append, List.length_replicate]; omega) (List.mem_append_left _ hv)
          exact ⟨freeGate row, List.mem_append_right _ (List.mem_map_of_mem hrow), j, hj⟩
        · rcases h.placed l hl v hv with h | ⟨g, hg, hj⟩
          · exact .inl h
          · exact .inr ⟨g, List.mem_append_left _ hg, hj⟩
    · exact ⟨hpre, rfl, rfl, ⟨_, rfl⟩, rfl⟩

/-- A variable without a tag gets a range constraint. -/
theorem Honest.assign {s : Draft F} {P : List Nat} (h : Honest toNat s P none) {v : Nat} {x : F} (hx : s.vars[v]? = some x)
    {list : RangeList} (hl : list ∈ s.rangeLists) (hle : toNat x ≤ list.target) (h0 : s.tg v = 0) :
    ∃ s', s.assignTag v list.tag = .ok s' ∧ Honest toNat { s' with rangeLists := appendRange list.target v s'.rangeLists } (v :: P) none ∧
      Grows s { s' with rangeLists := appendRange list.target v s'.rangeLists } := by
  have hv := lt_of_get hx
  have hr := h.ident v hv
  have hn := h.inv.nums_le list hl
  have hrun : s.assignTag v list.tag = .ok { s with tags := s.tags.set v list.tag } := by
    refine bind_ok.2 ⟨(), check_ok.2 (decide_eq_true hn.1.2), bind_ok.2 ⟨v, h.index_real hv, bind_ok.2 ⟨_, h.index_tags hv, ?_⟩⟩⟩
    rw [h0, if_neg (by omega)]
    exact bind_ok.2 ⟨(), check_ok.2 (by simp), rfl⟩
  have heq : { s with tags := s.tags.set v list.tag, rangeLists := appendRange list.target v s.rangeLists } = s.withVar v list.target list.tag := by
    rw [withVar, hr]
  have hT : (s.withVar v list.target list.tag).rangeLists = appendRange list.target v s.rangeLists := rfl
  refine ⟨_, hrun, ?_, ?_⟩
  · show Honest toNat { s with tags := s.tags.set v list.tag, rangeLists := appendRange list.target v s.rangeLists } (v :: P) none
    rw [heq]
    obtain ⟨hi, he⟩ := withVar_inv h.inv hv hl (by rw [hr]; exact h0)
    refine ⟨hi, h.ident, h.arith, h.zero, h.consts, fun l hl1 => ?_, fun l hl1 u hu => ?_⟩
    · rw [hT] at hl1
      obtain ⟨l', hl', rfl⟩ := mem_appendRange.1 hl1
      obtain ⟨h1, h2, h3⟩ := h.lists l' hl'
      by_cases e : l'.target = list.target
      · rw [if_pos e]
        refine ⟨h1, fun u hu => ?_, fun k hk => ?_⟩
        · rcases List.mem_append.1 hu with hu | hu
          · exact h2 u hu
          · rw [List.mem_singleton.1 hu]; exact ⟨x, hx, e ▸ hle⟩
        · obtain ⟨u, hu, e'⟩ := h3 k hk
          exact ⟨u, List.mem_append_left _ hu, e'⟩
      · rw [if_neg e]; exact ⟨h1, h2, h3⟩
    · rw [hT] at hl1
      obtain ⟨l', hl', rfl⟩ := mem_appendRange.1 hl1
      have hold : ∀ u ∈ l'.vars, u ∈ v :: P ∨ ∃ g ∈ s.arith, ∃ j, g.row j = u := fun u hu =>
        (h.placed l' hl' u hu).imp (List.mem_cons_of_mem _) id
      by_cases e : l'.target = list.target
      · rw [if_pos e] at hu
        rcases List.mem_append.1 hu with hu | hu
        · exact hold u hu
        · rw [List.mem_singleton.1 hu]; exact .inl List.mem_cons_self
      · rw [if_neg e] at hu; exact hold u hu
  · exact ⟨List.prefix_rfl, rfl, rfl, List.prefix_rfl, rfl⟩

/-- A range constraint on a variable without a tag. -/
theorem Honest.newRange_fresh (hT : Lifts toNat) {s : Draft F} {P : List Nat} (h : Honest toNat s P none) {v : Nat} {x : F} (hx : s.vars[v]? = some x)
    {target : Nat} (ht : target < 2 ^ 14) (hle : toNat x ≤ target) (h0 : s.tg v = 0) (fuel : Nat) :
    ∃ s', s.newRange v target (fuel + 1) = .ok s' ∧ Honest toNat s' (v :: P) none ∧ Grows s s' := by
  have hv := lt_of_get hx
  obtain ⟨s1, list, hr1, h1, g1, hf, htg⟩ := h.ensureRange hT ht
  have hx1 := get_mono g1.vars hx
  have hm := List.mem_of_find?_eq_some hf
  have hTg : list.target = target := by simpa using List.find?_some hf
  subst hTg
  have ht0 : s1.tg v = 0 := (htg v hv).trans h0
  obtain ⟨s2, hr2, h2, g2⟩ := h1.assign hx1 hm hle ht0
  refine ⟨_, ?_, h2, g1.trans g2⟩
  rw [newRange]
  refine bind_ok.2 ⟨s1, hr1, bind_ok.2 ⟨v, h1.index_real (lt_of_get hx1), bind_ok.2 ⟨_, h1.index_tags (lt_of_get hx1), ?_⟩⟩⟩
  have hn := h1.inv.nums_le list hm
  rw [hf, ht0]
  simp only
  rw [if_neg (by omega), if_neg (by omega)]
  exact bind_ok.2 ⟨s2, hr2, rfl⟩

/-- A range constraint. -/
theorem Honest.newRange (hT : Lifts toNat) {s : Draft F} {P : List Nat} (h : Honest toNat s P none) {v : Nat} {x : F} (hx : s.vars[v]? = some x)
    {target : Nat} (ht : target < 2 ^ 14) (hle : toNat x ≤ target) :
    ∃ s', s.newRange v target 2 = .ok s' ∧ Honest toNat s' (v :: P) none ∧ Grows s s' := by
  have hv := lt_of_get hx
  by_cases h0 : s.tg v = 0
  · exact h.newRange_fresh hT hx ht hle h0 1
  obtain ⟨s1, list, hr1, h1, g1, hf, htg⟩ := h.ensureRange hT ht
  have hx1 := get_mono g1.vars hx
  have hv1 := lt_of_get hx1
  have hm := List.mem_of_find?_eq_some hf
  have hTg : list.target = target := by simpa using List.find?_some hf
  subst hTg
  have h01 : s1.tg v ≠ 0 := by rw [htg v hv]; exact h0
  have hstart : ∀ s', ((if s1.tg v = list.tag then pure s1 else
      match s1.rangeLists.find? (·.tag = s1.tg v) with
      | none => .error (.panic "assertion failed: found_tag")
      | some l =>
        if l.target < list.target then pure s1 else do
          let x ← s1.getVariable v
          let s ← (s1.addVariable x).addGate v s1.vars.length s1.zeroIdx 1 (-1) 0 0
          Draft.newRange s s1.vars.length list.target 1) : Except Err (Draft F)) = .ok s' → s.newRange v list.target 2 = .ok s' := by
    intro s' hs'
    rw [Draft.newRange]
    refine bind_ok.2 ⟨s1, hr1, bind_ok.2 ⟨v, h1.index_real hv1, bind_ok.2 ⟨_, h1.index_tags hv1, ?_⟩⟩⟩
    rw [hf]
    simp only
    by_cases c1 : s1.tg v = list.tag
    · rw [if_pos c1] at hs' ⊢; exact hs'
    · rw [if_neg c1] at hs' ⊢
      rw [if_pos h01]
      exact hs'
  by_cases c1 : s1.tg v = list.tag
  · exact ⟨s1, hstart s1 (by rw [if_pos c1]; rfl), h1.weaken fun u hu => .inl (List.mem_cons_of_mem _ hu), g1⟩
  have hfind : ∃ l, s1.rangeLists.find? (·.tag = s1.tg v) = some l := by
    obtain ⟨l, hl, e, -⟩ := h1.inv.tag_list v hv1 (by rw [h1.ident v hv1]; exact h01)
    rw [← Option.isSome_iff_exists, List.find?_isSome]
    exact ⟨l, hl, by rw [h1.ident v hv1] at e; simp [e]⟩
  obtain ⟨l, hl⟩ := hfind
  by_cases c2 : l.target < list.target
  · exact ⟨s1, hstart s1 (by rw [if_neg c1, hl]; simp only; rw [if_pos c2]; rfl), h1.weaken fun u hu => .inl (List.mem_cons_of_mem _ hu), g1⟩
  have h2 := h1.addVariable x
  have hnew := get_new s1 x
  have hxo : (s1.addVariable x).vars[v]? = some x := get_mono ⟨[x], rfl⟩ hx1
  obtain ⟨s3, hr3, h3, g3, hv3, ⟨g, hg, hrow⟩, -⟩ := h2.gate (q := ⟨v, s1.vars.length, s1.zeroIdx, (s1.addVariable x).zeroIdx, 0, 1, -1, 0, 0, 0⟩)
    ⟨lt_of_get hxo, lt_of_get hnew, lt_of_get h2.zero, lt_of_get h2.zero⟩ (by simp)
    (fun w hw => by simp only [Quad.value, hw _ _ hxo, hw _ _ hnew]; ring)
  have htg3 : s3.tg s1.vars.length = 0 := by
    have : s3.tags = (s1.addVariable x).tags := by rw [(bigGate_eq hr3).2]; rfl
    rw [tg, this, addVariable_eq]
    exact tg_addMany_new h1.inv.tags_len [x] 0 le_rfl (by simp)
  obtain ⟨s4, hr4, h4, g4⟩ := h3.newRange_fresh hT (v := s1.vars.length) (x := x) (by rw [hv3]; exact hnew) ht hle htg3 0
  refine ⟨s4, hstart s4 ?_, ?_, g1.trans ((grows_addVariable s1 x).trans (g3.trans g4))⟩
  · rw [if_neg c1, hl]
    simp only
    rw [if_neg c2]
    exact bind_ok.2 ⟨x, h1.getVariable hx1, bind_ok.2 ⟨s3, hr3, hr4⟩⟩
  · refine h4.weaken fun u hu => ?_
    rcases List.mem_cons.1 hu with rfl | hu
    · exact .inr ⟨g, g4.arith.subset hg, 1, by rw [hrow]; rfl⟩
    · exact .inl (List.mem_cons_of_mem _ hu)

end Verif.Honk.Draft
