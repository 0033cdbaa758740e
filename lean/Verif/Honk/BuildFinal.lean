import Verif.Honk.BuildExpr

/-!
# Lemmas about the finalization of circuits
-/

namespace Verif.Honk.Draft

variable {F : Type} [Field F]

/-- A row of `delta_range`. -/
def deltaGate (row : Row) : Gate F := ⟨row, 0, 0, 0, 0, 0, 0, 0, 1⟩

/-- The variables of the sorted list. -/
def sortedVars (z pad first n : Nat) : List Nat := List.replicate pad z ++ List.range' first n

/-- The value of an arithmetic gate. -/
def gateValue (w : Nat → F) (g : Gate F) : F := g.qm * w (g.row 0) * w (g.row 1) + lin w g

theorem addGate_eq {s s' : Draft F} {a b c : Nat} {qa qb qc k : F} (h : s.addGate a b c qa qb qc k = .ok s') :
    ∃ g : Gate F, s' = s.pushArith g ∧ g.qArith = 1 ∧ ∀ w : Nat → F, gateValue w g = qa * w a + qb * w b + qc * w c + k := by
  refine ⟨_, (bigGate_eq h).2, rfl, fun w => ?_⟩
  simp only [gateValue, lin, Bool.false_eq_true, if_false, Matrix.cons_val_zero, Matrix.cons_val_one, Matrix.cons_val]
  ring

theorem mapM_index {l : List Nat} : ∀ {vs rs : List Nat}, vs.mapM (index l) = .ok rs → rs = vs.map fun v => l.getD v 0
  | [], rs, h => by cases h; rfl
  | v :: vs, rs, h => by
    rw [List.mapM_cons] at h
    obtain ⟨a, h1, h⟩ := bind_ok.1 h
    obtain ⟨b, h2, h⟩ := bind_ok.1 h
    cases h
    rw [List.map_cons, ← mapM_index h2, List.getD_eq_getElem?_getD, index_iff.1 h1]; rfl

theorem mapM_length {α β : Type} {f : α → Except Err β} : ∀ {vs : List α} {rs : List β}, vs.mapM f = .ok rs → rs.length = vs.length
  | [], rs, h => by cases h; rfl
  | v :: vs, rs, h => by
    rw [List.mapM_cons] at h
    obtain ⟨a, h1, h⟩ := bind_ok.1 h
    obtain ⟨b, h2, h⟩ := bind_ok.1 h
    cases h
    rw [List.length_cons, List.length_cons, mapM_length h2]

theorem processRange_ok {toNat : F → Nat} {s s' : Draft F} {L : RangeList} (h1 : s.real.length = s.vars.length) (h2 : s.tags.length = s.vars.length)
    (h3 : L.tau ≤ s.tag) (h4 : L.tau ≠ 0) (h : s.processRange toNat L = .ok s') :
    ∃ (xs : List F) (pad : Nat) (g g' : Gate F) (last : Row), xs.length = (L.vars.map s.rl).dedup.length ∧ 0 < xs.length ∧
      (pad + xs.length) % 4 = 0 ∧ 4 < pad + xs.length ∧ pad ≤ 7 ∧
      (∀ v ∈ sortedVars s.zeroIdx pad s.vars.length xs.length, v < s.vars.length + xs.length) ∧
      g.qArith = 1 ∧ (∀ w : Nat → F, gateValue w g = w ((sortedVars s.zeroIdx pad s.vars.length xs.length).headD 0)) ∧
      g'.qArith = 1 ∧ (∀ w : Nat → F, gateValue w g' = w ((sortedVars s.zeroIdx pad s.vars.length xs.length).getLastD 0) - L.target) ∧
      last 0 = (sortedVars s.zeroIdx pad s.vars.length xs.length).getLastD 0 ∧
      s' = { s.addMany xs L.tau with
        arith := s.arith ++ [g, g'],
        delta := s.delta ++ ((chunks (sortedVars s.zeroIdx pad s.vars.length xs.length)).map deltaGate ++ [freeGate last]) } := by
  obtain ⟨_, hv, h⟩ := bind_ok.1 h
  obtain ⟨_, hne, h⟩ := bind_ok.1 h
  obtain ⟨reals, hr, h⟩ := bind_ok.1 h
  obtain ⟨values, hval, h⟩ := bind_ok.1 h
  obtain ⟨s1, hs1, h⟩ := bind_ok.1 h
  have hne : L.vars ≠ [] := by simpa using check_ok.1 hne
  obtain rfl := mapM_index hr
  have hlen := mapM_length hval
  rw [addTagged_fold h4 _ h1 h2 h3] at hs1
  cases hs1
  have hxs : (sortValues toNat values (Nat.log 2 (2 ^ Nat.clog 2 (L.target + 1)))).length = (L.vars.map s.rl).dedup.length := by
    rw [sortValues, List.length_map, List.length_insertionSort, List.length_map, hlen]
    exact ((List.perm_insertionSort _ _).dedup).length_eq
  have hpos : 0 < (L.vars.map s.rl).dedup.length := by
    rw [List.length_pos_iff, Ne, List.dedup_eq_nil, List.map_eq_nil_iff]; exact hne
  rw [show (L.vars.map fun v => s.real.getD v 0) = L.vars.map s.rl from rfl] at h hlen
  have hvs : (((L.vars.map s.rl).insertionSort (· ≤ ·)).dedup).length = (sortValues toNat values (Nat.log 2 (2 ^ Nat.clog 2 (L.target + 1)))).length := by
    rw [hxs]; exact ((List.perm_insertionSort _ _).dedup).length_eq
  rw [hvs] at h
  generalize sortValues toNat values (Nat.log 2 (2 ^ Nat.clog 2 (L.target + 1))) = xs at *
  have hpad : ((4 - xs.length % 4) % 4 + if xs.length ≤ 4 then 4 else 0) ≤ 7 := by split_ifs <;> omega
  generalize ((4 - xs.length % 4) % 4 + if xs.length ≤ 4 then 4 else 0) = pad at *
  obtain ⟨_, hc, h⟩ := bind_ok.1 h
  obtain ⟨_, hvalid, h⟩ := bind_ok.1 h
  obtain ⟨s2, hg, h⟩ := bind_ok.1 h
  obtain ⟨g, rfl, hg1, hg2⟩ := addGate_eq hg
  obtain ⟨g', rfl, hg1', hg2'⟩ := addGate_eq h
  rw [checkValid_ok, length_addMany] at hvalid
  have hc := check_ok.1 hc
  simp only [List.length_append, List.length_replicate, List.length_range', decide_eq_true_eq] at hc
  refine ⟨xs, pad, g, g', ![(sortedVars s.zeroIdx pad s.vars.length xs.length).getLastD 0, s.zeroIdx, s.zeroIdx, s.zeroIdx], hxs, hxs ▸ hpos,
    hc.1, hc.2, hpad, hvalid, hg1, fun w => ?_, hg1', fun w => ?_, ?_, ?_⟩
  · rw [hg2]; simp only [sortedVars, addMany]; ring
  · rw [hg2']; simp only [sortedVars, addMany, pushDelta, pushArith]; ring
  · rfl
  · simp [pushDelta, pushArith, addMany, sortedVars, deltaGate, List.append_assoc]

/-- The rows and the variables of a sorted list are in the circuit. -/
structure Sorted (b s : Draft F) (L : RangeList) (first n pad : Nat) (g g' : Gate F) (last : Row) : Prop where
  count : n = (L.vars.map b.rl).dedup.length
  pos : 0 < n
  four : (pad + n) % 4 = 0
  more : 4 < pad + n
  padLe : pad ≤ 7
  old : b.vars.length ≤ first
  bound : first + n ≤ s.vars.length
  tags : ∀ u, b.vars.length ≤ u → u < s.vars.length → (s.tg u = L.tau ↔ first ≤ u ∧ u < first + n)
  valid : ∀ v ∈ sortedVars b.zeroIdx pad first n, v < s.vars.length
  mem : g ∈ s.arith
  arith : g.qArith = 1
  value : ∀ w : Nat → F, gateValue w g = w ((sortedVars b.zeroIdx pad first n).headD 0)
  mem' : g' ∈ s.arith
  arith' : g'.qArith = 1
  value' : ∀ w : Nat → F, gateValue w g' = w ((sortedVars b.zeroIdx pad first n).getLastD 0) - L.target
  lastEq : last 0 = (sortedVars b.zeroIdx pad first n).getLastD 0
  delta : ((chunks (sortedVars b.zeroIdx pad first n)).map deltaGate ++ [freeGate last]) <:+: s.delta

/-- The circuit `b` after the lists `ls` have been sorted. -/
structure Final (b : Draft F) (ls : List RangeList) (s : Draft F) : Prop where
  zero : s.zeroIdx = b.zeroIdx
  inputs : s.inputs = b.inputs
  tau : s.tau = b.tau
  tag : s.tag = b.tag
  real_len : s.real.length = s.vars.length
  tags_len : s.tags.length = s.vars.length
  len : b.vars.length ≤ s.vars.length
  rl_old : ∀ u < b.vars.length, s.rl u = b.rl u
  rl_new : ∀ u, b.vars.length ≤ u → u < s.vars.length → s.rl u = u
  tg_old : ∀ u < b.vars.length, s.tg u = b.tg u
  tg_new : ∀ u, b.vars.length ≤ u → u < s.vars.length → ∃ L ∈ ls, s.tg u = L.tau
  arith : b.arith <+: s.arith
  lists : ∀ L ∈ ls, ∃ first n pad g g' last, Sorted b s L first n pad g g' last

theorem Final.step {toNat : F → Nat} {b s s' : Draft F} {ls : List RangeList} {L : RangeList} (hb : Inv b) (h : Final b ls s) (hL : L ∈ b.rangeLists)
    (hls : ∀ l ∈ ls, l ∈ b.rangeLists ∧ l.tau ≠ L.tau) (hr : s.processRange toNat L = .ok s') : Final b (ls ++ [L]) s' := by
  have hn := hb.nums_le L hL
  obtain ⟨xs, pad, g, g', last, hxs, hpos, h4, hm, hpad, hv, ha, hg, ha', hg', hlast, rfl⟩ :=
    processRange_ok h.real_len h.tags_len (h.tag ▸ hn.2.2) (by omega) hr
  have hreal : L.vars.map s.rl = L.vars.map b.rl := List.map_congr_left fun v hv => h.rl_old v (hb.list_tag L hL v hv).1
  rw [hreal] at hxs
  rw [h.zero] at hg hg' hlast hv
  have hlen := h.len
  have hl := length_addMany s xs L.tau
  have r1 := fun v (hv : v < s.vars.length) => rl_addMany_old h.real_len xs L.tau hv
  have r2 := fun v (hv : s.vars.length ≤ v) (hv' : v < s.vars.length + xs.length) => rl_addMany_new h.real_len xs L.tau hv hv'
  have t1 := fun v (hv : v < s.vars.length) => tg_addMany_old h.tags_len xs L.tau hv
  have t2 := fun v (hv : s.vars.length ≤ v) (hv' : v < s.vars.length + xs.length) => tg_addMany_new h.tags_len xs L.tau hv hv'
  refine ⟨h.zero, h.inputs, h.tau, h.tag, ?_, ?_, ?_, ?_, ?_, ?_, ?_, ?_, ?_⟩
  · simp [addMany, h.real_len]
  · simp [addMany, h.tags_len]
  · exact hl ▸ Nat.le_add_right_of_le hlen
  · exact fun u hu => (r1 u (lt_of_lt_of_le hu hlen)).trans (h.rl_old u hu)
  · intro u hu hu'
    by_cases hc : u < s.vars.length
    · exact (r1 u hc).trans (h.rl_new u hu hc)
    · exact r2 u (not_lt.1 hc) (lt_of_lt_of_eq hu' hl)
  · exact fun u hu => (t1 u (lt_of_lt_of_le hu hlen)).trans (h.tg_old u hu)
  · intro u hu hu'
    by_cases hc : u < s.vars.length
    · obtain ⟨l, hl, e⟩ := h.tg_new u hu hc
      exact ⟨l, List.mem_append_left _ hl, (t1 u hc).trans e⟩
    · exact ⟨L, by simp, t2 u (not_lt.1 hc) (lt_of_lt_of_eq hu' hl)⟩
  · exact h.arith.trans (List.prefix_append _ _)
  · intro l hlm
    rcases List.mem_append.1 hlm with hlm | hlm
    · obtain ⟨first, n, pad', k, k', last', hS⟩ := h.lists l hlm
      refine ⟨first, n, pad', k, k', last', ⟨hS.count, hS.pos, hS.four, hS.more, hS.padLe, hS.old, ?_, ?_, ?_,
        List.mem_append_left _ hS.mem, hS.arith, hS.value, List.mem_append_left _ hS.mem', hS.arith', hS.value', hS.lastEq, ?_⟩⟩
      · exact hl ▸ Nat.le_add_right_of_le hS.bound
      · intro u hu hu'
        by_cases hc : u < s.vars.length
        · exact (t1 u hc) ▸ hS.tags u hu hc
        · have e : tg _ u = L.tau := t2 u (not_lt.1 hc) (lt_of_lt_of_eq hu' hl)
          have hb := hS.bound
          constructor
          · intro e'
            exact absurd (e'.symm.trans e) (hls l hlm).2
          · intro hc'; omega
      · exact fun v hv => lt_of_lt_of_le (hS.valid v hv) (hl ▸ Nat.le_add_right _ _)
      · exact hS.delta.trans (List.prefix_append _ _).isInfix
    · obtain rfl := List.mem_singleton.1 hlm
      refine ⟨s.vars.length, xs.length, pad, g, g', last, ⟨hxs, hpos, h4, hm, hpad, hlen, hl.ge, ?_, ?_, by simp, ha, hg, by simp, ha', hg', hlast, ?_⟩⟩
      · intro u hu hu'
        have hu'' := lt_of_lt_of_eq hu' hl
        by_cases hc : u < s.vars.length
        · constructor
          · intro e
            obtain ⟨l', hl', e'⟩ := h.tg_new u hu hc
            exact absurd (e'.symm.trans ((t1 u hc).symm.trans e)) (hls l' hl').2
          · intro h'; omega
        · exact ⟨fun _ => ⟨not_lt.1 hc, hu''⟩, fun _ => t2 u (not_lt.1 hc) hu''⟩
      · exact fun v hv' => hl ▸ hv v hv'
      · rw [← h.zero]; exact (List.suffix_append _ _).isInfix

theorem processRanges_ok {toNat : F → Nat} {b s : Draft F} (hb : Inv b) (h : b.processRanges toNat = .ok s) : Final b b.rangeLists s := by
  have key : ∀ (ls done : List RangeList) (s0 : Draft F), (∀ l ∈ ls, l ∈ b.rangeLists) → (∀ l ∈ done, l ∈ b.rangeLists) →
      ((done ++ ls).map (·.tau)).Nodup → Final b done s0 → ls.foldlM (fun s l => s.processRange toNat l) s0 = .ok s → Final b (done ++ ls) s := by
    intro ls
    induction ls with
    | nil => intro done s0 _ _ _ hf hr; cases hr; rwa [List.append_nil]
    | cons l ls ih =>
      intro done s0 h1 h2 h3 hf hr
      rw [List.foldlM_cons] at hr
      obtain ⟨s1, hs1, hr⟩ := bind_ok.1 hr
      have h1' := h1 l List.mem_cons_self
      have hstep := hf.step hb h1' (fun l' hl' => ⟨h2 l' hl', fun e => by
        rw [List.map_append, List.nodup_append'] at h3
        exact h3.2.2 (List.mem_map.2 ⟨l', hl', e⟩) (by simp)⟩) hs1
      have := ih (done ++ [l]) s1 (fun x hx => h1 x (List.mem_cons_of_mem _ hx)) (fun x hx => by
        rcases List.mem_append.1 hx with hx | hx
        · exact h2 x hx
        · rw [List.mem_singleton.1 hx]; exact h1') (by simpa using h3) hstep hr
      simpa using this
  refine key b.rangeLists [] b (fun _ h => h) (by simp) ?_ ?_ h
  · rw [List.nil_append]
    refine (List.nodup_map_iff_inj_on ?_).2 ?_
    · exact List.Nodup.of_map _ hb.targets
    · intro x hx y hy e
      by_contra hne
      exact hb.nums_disjoint hx hy hne (a := x.tau) (by simp) (by rw [e]; simp)
  · exact ⟨rfl, rfl, rfl, rfl, hb.real_len, hb.tags_len, le_rfl, fun _ _ => rfl, fun u h1 h2 => by omega, fun _ _ => rfl,
      fun u h1 h2 => by omega, List.prefix_rfl, by simp⟩

end Verif.Honk.Draft
