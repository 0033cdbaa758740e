import Verif.Honk.BuildHonestAll

/-!
# Lemmas: the sorted lists of an honest prover
-/

namespace Verif.Honk.Draft

variable {F : Type} [Field F] {toNat : F → Nat}

/-- The bits of the sorting are enough for the bound. -/
theorem lt_sortBits (target : Nat) : target < 2 ^ Nat.log 2 (2 ^ Nat.clog 2 (target + 1)) := by
  rw [Nat.log_pow (by norm_num)]
  exact (Nat.clog_le_iff_le_pow (by norm_num)).1 le_rfl

/-- Neighbours in a sorted list with all multiples of three differ by at most three. -/
theorem steps_of_sorted {l : List Nat} {target : Nat} (hs : l.Pairwise (· ≤ ·)) (hle : ∀ x ∈ l, x ≤ target) (hsub : ∀ k ∈ rangeValues target, k ∈ l)
    {t : Nat} (ht : t + 1 < l.length) : l.getD t 0 ≤ l.getD (t + 1) 0 ∧ l.getD (t + 1) 0 ≤ l.getD t 0 + 3 := by
  have hp := List.pairwise_iff_getElem.1 hs
  have e1 : l.getD t 0 = l[t] := by rw [List.getD_eq_getElem?_getD, List.getElem?_eq_getElem (by omega)]; rfl
  have e2 : l.getD (t + 1) 0 = l[t + 1] := by rw [List.getD_eq_getElem?_getD, List.getElem?_eq_getElem ht]; rfl
  rw [e1, e2]
  refine ⟨hp t (t + 1) (by omega) ht (by omega), ?_⟩
  by_contra hc
  have hb := hle _ (List.getElem_mem ht)
  have hk : 3 * (l[t] / 3 + 1) ∈ rangeValues target := by
    refine List.mem_append_left _ (List.mem_map.2 ⟨l[t] / 3 + 1, List.mem_range.2 (by omega), by omega⟩)
  obtain ⟨j, hj, ej⟩ := List.getElem_of_mem (hsub _ hk)
  rcases lt_trichotomy j t with h | h | h
  · have := hp j t hj (by omega) h; omega
  · subst h; omega
  · rcases Nat.lt_or_eq_of_le (Nat.succ_le_of_lt h) with h' | h'
    · have := hp (t + 1) j ht hj h'; omega
    · have : l[t + 1] = l[j] := by congr 1
      omega

theorem head_of_sorted {l : List Nat} {target : Nat} (hs : l.Pairwise (· ≤ ·)) (hsub : ∀ k ∈ rangeValues target, k ∈ l) : l.getD 0 0 = 0 := by
  have h0 := hsub 0 (List.mem_append_left _ (List.mem_map.2 ⟨0, by simp, rfl⟩))
  cases l with
  | nil => rfl
  | cons a l =>
    rcases List.mem_cons.1 h0 with e | h0
    · rw [← e]; rfl
    · have := (List.pairwise_cons.1 hs).1 0 h0
      show a = 0
      omega

theorem last_of_sorted {l : List Nat} {target : Nat} (hs : l.Pairwise (· ≤ ·)) (hle : ∀ x ∈ l, x ≤ target) (hsub : ∀ k ∈ rangeValues target, k ∈ l) :
    l.getD (l.length - 1) 0 = target := by
  have ht := hsub target (List.mem_append_right _ (List.mem_singleton.2 rfl))
  obtain ⟨j, hj, ej⟩ := List.getElem_of_mem ht
  have e1 : l.getD (l.length - 1) 0 = l[l.length - 1] := by rw [List.getD_eq_getElem?_getD, List.getElem?_eq_getElem (by omega)]; rfl
  rw [e1]
  have h1 := hle _ (List.getElem_mem (by omega : l.length - 1 < l.length))
  rcases Nat.lt_or_eq_of_le (by omega : j ≤ l.length - 1) with h | h
  · have := List.pairwise_iff_getElem.1 hs j (l.length - 1) hj (by omega) h
    omega
  · subst h; omega

/-! ## Rows of differences -/

/-- The values satisfy the rows of the block `delta_range`, whatever follows. -/
structure DeltaC (w : Nat → F) (gs : List (Gate F)) : Prop where
  ok : DeltaOk w gs
  kinds : ∀ g ∈ gs, g.qArith = 0 ∧ (g.qDelta = 0 ∨ g.qDelta = 1)
  last : ∀ g, gs.getLast? = some g → g.qDelta = 0

theorem DeltaC.append {w : Nat → F} {gs hs : List (Gate F)} (h : DeltaC w gs) (h' : DeltaC w hs) : DeltaC w (gs ++ hs) where
  ok i g g' hg hg' h1 := by
    by_cases c : i < gs.length
    · rw [List.getElem?_append_left c] at hg
      by_cases c' : i + 1 < gs.length
      · rw [List.getElem?_append_left c'] at hg'
        exact h.ok i g g' hg hg' h1
      · have : gs.getLast? = some g := by rw [List.getLast?_eq_getElem?, ← hg]; congr 1; omega
        rw [h.last g this] at h1
        exact absurd h1 zero_ne_one
    · rw [List.getElem?_append_right (by omega)] at hg hg'
      rw [show i + 1 - gs.length = i - gs.length + 1 by omega] at hg'
      exact h'.ok _ g g' hg hg' h1
  kinds g hg := (List.mem_append.1 hg).elim (h.kinds g) (h'.kinds g)
  last g hg := by
    rw [List.getLast?_append] at hg
    cases hl : hs.getLast? with
    | none => rw [hl] at hg; exact h.last g hg
    | some g' => rw [hl] at hg; cases hg; exact h'.last _ hl

theorem inRange_cast {m n : Nat} (h1 : m ≤ n) (h2 : n ≤ m + 3) : inRange ((n : F) - (m : F)) = 0 := by
  obtain ⟨d, rfl⟩ := Nat.exists_eq_add_of_le h1
  have hd : ((m + d : Nat) : F) - (m : F) = (d : F) := by push_cast; ring
  rw [hd, inRange]
  obtain rfl | rfl | rfl | rfl : d = 0 ∨ d = 1 ∨ d = 2 ∨ d = 3 := by omega
  all_goals push_cast; ring

theorem block_honest {w : Nat → F} {vs : List Nat} {l : List Nat} (hlen : vs.length = l.length) (h4 : vs.length % 4 = 0)
    (hw : ∀ t < vs.length, w (vs.getD t 0) = (l.getD t 0 : F))
    (hst : ∀ t, t + 1 < l.length → l.getD t 0 ≤ l.getD (t + 1) 0 ∧ l.getD (t + 1) 0 ≤ l.getD t 0 + 3) {last : Row} (hl : last 0 = vs.getLastD 0) :
    DeltaC w ((chunks vs).map deltaGate ++ [freeGate last]) := by
  have hcl : (chunks vs).length = vs.length / 4 := by simp [chunks]
  have hdiff : ∀ t, t + 1 < vs.length → inRange (w (vs.getD (t + 1) 0) - w (vs.getD t 0)) = 0 := by
    intro t ht
    rw [hw t (by omega), hw (t + 1) ht]
    obtain ⟨a, b⟩ := hst t (by omega)
    exact inRange_cast a b
  refine ⟨fun i g g' hg hg' h1 => ?_, fun g hg => ?_, fun g hg => ?_⟩
  · have hi : i < vs.length / 4 := by
      by_contra c
      rw [List.getElem?_append_right (by rw [List.length_map, hcl]; omega)] at hg
      have := List.mem_of_getElem? hg
      rw [List.mem_singleton.1 this] at h1
      exact zero_ne_one h1
    rw [List.getElem?_append_left (by rw [List.length_map, hcl]; exact hi), List.getElem?_map, chunks_get hi] at hg
    cases hg
    simp only [deltaGate, Fin.val_zero, Fin.val_one, Fin.val_two, Nat.add_zero, show ((3 : Fin 4) : Nat) = 3 from rfl]
    refine ⟨hdiff (4 * i) (by omega), hdiff (4 * i + 1) (by omega), hdiff (4 * i + 2) (by omega), ?_⟩
    by_cases c : i + 1 < vs.length / 4
    · rw [List.getElem?_append_left (by rw [List.length_map, hcl]; exact c), List.getElem?_map, chunks_get c] at hg'
      cases hg'
      simp only [deltaGate, Fin.val_zero, Nat.add_zero]
      rw [show 4 * (i + 1) = 4 * i + 3 + 1 by omega]
      exact hdiff _ (by omega)
    · rw [List.getElem?_append_right (by rw [List.length_map, hcl]; omega), List.length_map, hcl, show i + 1 - vs.length / 4 = 0 by omega] at hg'
      cases hg'
      have : vs.getLastD 0 = vs.getD (4 * i + 3) 0 := by
        rw [List.getLastD_eq_getLast?, List.getLast?_eq_getElem?, List.getD_eq_getElem?_getD, show vs.length - 1 = 4 * i + 3 by omega]
      simp only [freeGate, hl, this, sub_self]
      simp [inRange]
  · rcases List.mem_append.1 hg with hg | hg
    · obtain ⟨row, -, rfl⟩ := List.mem_map.1 hg
      exact ⟨rfl, .inr rfl⟩
    · rw [List.mem_singleton.1 hg]; exact ⟨rfl, .inl rfl⟩
  · rw [List.getLast?_append] at hg
    cases hg; rfl

theorem filler_honest {w : Nat → F} (z : Nat) : DeltaC w (fillerDelta z : List (Gate F)) := by
  refine ⟨fun i g g' hg hg' h1 => ?_, fun g hg => ?_, fun g hg => ?_⟩
  · match i, hg, hg' with
    | 0, hg, hg' =>
      cases hg; cases hg'
      simp [freeGate, inRange]
    | 1, hg, hg' => cases hg'
    | i + 2, hg, hg' => cases hg
  · simp only [fillerDelta, List.mem_cons, List.not_mem_nil, or_false] at hg
    rcases hg with rfl | rfl
    · exact ⟨rfl, .inr rfl⟩
    · exact ⟨rfl, .inl rfl⟩
  · cases hg; rfl

/-! ## One list -/

/-- The gate of the first or the last value. -/
def endGate (z v : Nat) (x : F) : Gate F := ⟨![v, z, z, z], 0, 1, 0, 0, 0, -x, 1, 0⟩

theorem sortConstraint_run {s : Draft F} {vs : List Nat} (h4 : vs.length % 4 = 0) (h5 : 4 < vs.length) (hv : ∀ v ∈ vs, v < s.vars.length)
    (hz : s.zeroIdx < s.vars.length) (start stop : F) : s.sortConstraint vs start stop = .ok { s with
      arith := s.arith ++ [endGate s.zeroIdx (vs.headD 0) start] ++ [endGate s.zeroIdx (vs.getLastD 0) stop],
      delta := s.delta ++ (chunks vs).map deltaGate ++ [freeGate ![vs.getLastD 0, s.zeroIdx, s.zeroIdx, s.zeroIdx]] } := by
  have hne : vs ≠ [] := by rintro rfl; simp at h5
  have hh : vs.headD 0 < s.vars.length := by
    cases vs with
    | nil => exact absurd rfl hne
    | cons a l => exact hv a List.mem_cons_self
  have hl : vs.getLastD 0 < s.vars.length := by
    rw [List.getLastD_eq_getLast?, List.getLast?_eq_some_getLast hne]
    exact hv _ (List.getLast_mem hne)
  rw [sortConstraint]
  refine bind_ok.2 ⟨(), check_ok.2 (decide_eq_true ⟨h4, h5⟩), bind_ok.2 ⟨(), checkValid_ok.2 hv, ?_⟩⟩
  refine bind_ok.2 ⟨_, bigGate_run (q := ⟨vs.headD 0, s.zeroIdx, s.zeroIdx, s.zeroIdx, 0, 1, 0, 0, 0, -start⟩) ⟨hh, hz, hz, hz⟩ false, ?_⟩
  exact bigGate_run (s := { s with
      arith := s.arith ++ [endGate s.zeroIdx (vs.headD 0) start],
      delta := s.delta ++ (chunks vs).map deltaGate ++ [freeGate ![vs.getLastD 0, s.zeroIdx, s.zeroIdx, s.zeroIdx]] })
    (q := ⟨vs.getLastD 0, s.zeroIdx, s.zeroIdx, s.zeroIdx, 0, 1, 0, 0, 0, -stop⟩) ⟨hl, hz, hz, hz⟩ false

theorem mapM_run {α β : Type} {f : α → Except Err β} {g : α → β} : ∀ {vs : List α}, (∀ v ∈ vs, f v = .ok (g v)) → vs.mapM f = .ok (vs.map g)
  | [], _ => rfl
  | v :: vs, h => by
    rw [List.mapM_cons]
    exact bind_ok.2 ⟨_, h v List.mem_cons_self, bind_ok.2 ⟨_, mapM_run fun u hu => h u (List.mem_cons_of_mem _ hu), rfl⟩⟩

/-- The circuit of an honest prover after some lists have been sorted. -/
structure HFinal (toNat : F → Nat) (b : Draft F) (ls : List RangeList) (s : Draft F) : Prop where
  fin : Final b ls s
  vars : b.vars <+: s.vars
  arith : ∀ w, Agree w s → ArithC w s.arith none
  delta : ∀ w, Agree w s → DeltaC w s.delta
  values : ∀ L ∈ ls, (((List.range' b.vars.length (s.vars.length - b.vars.length)).filter fun u => s.tg u = L.tau).map fun u => s.vars.getD u 0).Perm
    (L.vars.dedup.map fun u => b.vars.getD u 0)

theorem HFinal.step (hT : Lifts toNat) {b s : Draft F} {ls : List RangeList} {L : RangeList} (hb : Honest toNat b [] none) (h : HFinal toNat b ls s)
    (hL : L ∈ b.rangeLists) (hls : ∀ l ∈ ls, l ∈ b.rangeLists ∧ l.tau ≠ L.tau) :
    ∃ s', s.processRange toNat L = .ok s' ∧ HFinal toNat b (ls ++ [L]) s' := by
  have hn := hb.inv.nums_le L hL
  obtain ⟨htg, hvals, hrange⟩ := hb.lists L hL
  have hlen := h.fin.len
  have hlv : ∀ v ∈ L.vars, v < b.vars.length := fun v hv => (hb.inv.list_tag L hL v hv).1
  set val : Nat → F := fun u => b.vars.getD u 0 with hval
  have hget : ∀ v < b.vars.length, b.vars[v]? = some (val v) := fun v hv => by
    simp [hval, List.getD_eq_getElem?_getD, List.getElem?_eq_getElem hv]
  have hreal : ∀ v < b.vars.length, index s.real v = .ok v := fun v hv => by
    have h1 := (h.fin.rl_old v hv).trans (hb.ident v hv)
    have h2 : v < s.real.length := by rw [h.fin.real_len]; omega
    rw [rl, List.getD_eq_getElem?_getD, List.getElem?_eq_getElem h2] at h1
    rw [index_iff, List.getElem?_eq_getElem h2]
    exact congrArg some h1
  have hgv : ∀ v < b.vars.length, s.getVariable v = .ok (val v) := fun v hv =>
    bind_ok.2 ⟨(), check_ok.2 (decide_eq_true (by omega)), bind_ok.2 ⟨v, hreal v hv, index_iff.2 (get_mono h.vars (hget v hv))⟩⟩
  have hle : ∀ v ∈ L.vars, toNat (val v) ≤ L.target := fun v hv => by
    obtain ⟨x, hx, hle⟩ := hvals v hv
    rw [hget v (hlv v hv)] at hx
    cases hx; exact hle
  set us := (L.vars.insertionSort (· ≤ ·)).dedup with hus
  have husp : us.Perm L.vars.dedup := (List.perm_insertionSort _ _).dedup
  have husm : ∀ v, v ∈ us ↔ v ∈ L.vars := fun v => by rw [husp.mem_iff, List.mem_dedup]
  set ns := ((us.map val).map fun x => toNat x % 2 ^ Nat.log 2 (2 ^ Nat.clog 2 (L.target + 1))).insertionSort (· ≤ ·) with hns
  have hnsp : ns.Perm (us.map fun v => toNat (val v)) := by
    refine (List.perm_insertionSort _ _).trans ?_
    rw [List.map_map]
    refine List.Perm.of_eq (List.map_congr_left fun v hv => ?_)
    exact Nat.mod_eq_of_lt (lt_of_le_of_lt (hle v ((husm v).1 hv)) (lt_sortBits L.target))
  have hnss : ns.Pairwise (· ≤ ·) := List.pairwise_insertionSort _ _
  have hnsle : ∀ x ∈ ns, x ≤ L.target := fun x hx => by
    obtain ⟨v, hv, rfl⟩ := List.mem_map.1 (hnsp.mem_iff.1 hx)
    exact hle v ((husm v).1 hv)
  have hnsr : ∀ k ∈ rangeValues L.target, k ∈ ns := fun k hk => by
    obtain ⟨v, hv, e⟩ := hrange k hk
    rw [hget v (hlv v hv)] at e
    have hk' : k ≤ L.target := by
      simp only [rangeValues, List.mem_append, List.mem_map, List.mem_range, List.mem_singleton] at hk
      rcases hk with ⟨a, ha, rfl⟩ | rfl <;> omega
    refine hnsp.mem_iff.2 (List.mem_map.2 ⟨v, (husm v).2 hv, ?_⟩)
    rw [Option.some.inj e, hT.small k (by omega)]
  have hne : L.vars ≠ [] := by
    obtain ⟨v, hv, -⟩ := hrange L.target (List.mem_append_right _ (List.mem_singleton.2 rfl))
    exact List.ne_nil_of_mem hv
  set xs : List F := ns.map Nat.cast with hxs
  have hxsp : xs.Perm (us.map val) := by
    refine (hnsp.map _).trans (List.Perm.of_eq ?_)
    rw [List.map_map]
    exact List.map_congr_left fun v _ => hT.cast _
  have hul : us.length = xs.length := by rw [hxsp.length_eq, List.length_map]
  have hupos : 0 < us.length := by
    obtain ⟨v, hv⟩ := List.exists_mem_of_ne_nil _ hne
    exact List.length_pos_of_mem ((husm v).2 hv)
  set pad := (4 - us.length % 4) % 4 + if us.length ≤ 4 then 4 else 0 with hpad
  have hpadok : (pad + xs.length) % 4 = 0 ∧ 4 < pad + xs.length := by
    rw [← hul, hpad]; split_ifs <;> omega
  set vs := List.replicate pad s.zeroIdx ++ List.range' s.vars.length xs.length with hvs
  have hvsl : vs.length = pad + xs.length := by simp [hvs]
  have hz : s.zeroIdx < s.vars.length := by rw [h.fin.zero]; exact lt_of_lt_of_le hb.inv.zero_lt hlen
  have hsum := length_addMany s xs L.tau
  have hvalid : ∀ v ∈ vs, v < (s.addMany xs L.tau).vars.length := by
    intro v hv
    rw [hsum]
    rcases List.mem_append.1 hv with hv | hv
    · rw [List.eq_of_mem_replicate hv]; omega
    · exact (List.mem_range'_1.1 hv).2
  have hrun : s.processRange toNat L = .ok { s.addMany xs L.tau with
      arith := s.arith ++ [endGate s.zeroIdx (vs.headD 0) 0] ++ [endGate s.zeroIdx (vs.getLastD 0) (L.target : F)],
      delta := s.delta ++ (chunks vs).map deltaGate ++ [freeGate ![vs.getLastD 0, s.zeroIdx, s.zeroIdx, s.zeroIdx]] } := by
    rw [processRange]
    refine bind_ok.2 ⟨(), checkValid_ok.2 fun v hv => lt_of_lt_of_le (hlv v hv) hlen, bind_ok.2 ⟨(), check_ok.2 (decide_eq_true hne),
      bind_ok.2 ⟨L.vars, ?_, bind_ok.2 ⟨us.map val, ?_, bind_ok.2 ⟨s.addMany xs L.tau, ?_, ?_⟩⟩⟩⟩⟩
    · have := mapM_run (f := index s.real) (g := id) fun v hv => hreal v (hlv v hv)
      rwa [List.map_id] at this
    · exact mapM_run fun v hv => hgv v (hlv v ((husm v).1 hv))
    · exact addTagged_fold (by omega) _ h.fin.real_len h.fin.tags_len (h.fin.tag ▸ hn.2.2)
    · have hxs' : sortValues toNat (us.map val) (Nat.log 2 (2 ^ Nat.clog 2 (L.target + 1))) = xs := rfl
      rw [hxs']
      exact sortConstraint_run (s := s.addMany xs L.tau) (vs := vs) (by rw [hvsl]; exact hpadok.1) (by rw [hvsl]; exact hpadok.2) hvalid
        (by rw [hsum]; exact lt_of_lt_of_le hz (Nat.le_add_right _ _)) 0 L.target
  refine ⟨_, hrun, h.fin.step hb.inv hL hls hrun, ?_, ?_, ?_, ?_⟩
  · exact h.vars.trans ⟨xs, rfl⟩
  all_goals
    have hpre : s.vars <+: (s.addMany xs L.tau).vars := ⟨xs, rfl⟩
  all_goals
    set l := List.replicate pad 0 ++ ns with hl
    have hls' : l.Pairwise (· ≤ ·) := by
      refine List.pairwise_append.2 ⟨?_, hnss, fun a ha c _ => by rw [List.eq_of_mem_replicate ha]; exact Nat.zero_le _⟩
      exact List.pairwise_replicate.2 (.inr le_rfl)
    have hlle : ∀ x ∈ l, x ≤ L.target := fun x hx => by
      rcases List.mem_append.1 hx with hx | hx
      · rw [List.eq_of_mem_replicate hx]; exact Nat.zero_le _
      · exact hnsle x hx
    have hlr : ∀ k ∈ rangeValues L.target, k ∈ l := fun k hk => List.mem_append_right _ (hnsr k hk)
    have hnl : ns.length = xs.length := by rw [hxs, List.length_map]
    have hll : vs.length = l.length := by rw [hvsl, hl, List.length_append, List.length_replicate, hnl]
    have hw : ∀ w : Nat → F, Agree w (s.addMany xs L.tau) → ∀ t < vs.length, w (vs.getD t 0) = (l.getD t 0 : F) := by
      intro w hw t ht
      have hz' : b.vars[b.zeroIdx]? = some 0 := hb.zero
      by_cases c : t < pad
      · have e1 : vs.getD t 0 = s.zeroIdx := by
          rw [List.getD_eq_getElem?_getD, hvs, List.getElem?_append_left (by simpa using c), List.getElem?_replicate, if_pos c]; rfl
        have e2 : l.getD t 0 = 0 := by
          rw [List.getD_eq_getElem?_getD, hl, List.getElem?_append_left (by simpa using c), List.getElem?_replicate, if_pos c]; rfl
        rw [e1, e2, h.fin.zero, Nat.cast_zero]
        exact hw _ _ (get_mono (h.vars.trans hpre) hz')
      · have ct : t - pad < xs.length := by omega
        have e1 : vs.getD t 0 = s.vars.length + (t - pad) := by
          rw [List.getD_eq_getElem?_getD, hvs, List.getElem?_append_right (by simp; omega), List.length_replicate, List.getElem?_range' ct]
          simp
        have e2 : l.getD t 0 = ns[t - pad]'(by omega) := by
          rw [List.getD_eq_getElem?_getD, hl, List.getElem?_append_right (by simp; omega), List.length_replicate,
            List.getElem?_eq_getElem (by omega)]; rfl
        rw [e1, e2]
        refine hw _ _ ?_
        show (s.vars ++ xs)[_]? = _
        rw [List.getElem?_append_right (by omega), Nat.add_sub_cancel_left, hxs, List.getElem?_map, List.getElem?_eq_getElem (by omega)]
        rfl
  · intro w hA
    have hA' : Agree w (s.addMany xs L.tau) := hA
    have hw := hw w hA'
    have ha := h.arith w (hA'.mono hpre)
    have e0 : w (vs.headD 0) = 0 := by
      have := hw 0 (by omega)
      rw [head_of_sorted hls' hlr] at this
      rw [show vs.headD 0 = vs.getD 0 0 by cases vs <;> rfl, this, Nat.cast_zero]
    have e1 : w (vs.getLastD 0) = (L.target : F) := by
      have := hw (vs.length - 1) (by omega)
      rw [hll, last_of_sorted hls' hlle hlr, ← hll] at this
      rw [← this, List.getLastD_eq_getLast?, List.getLast?_eq_getElem?, List.getD_eq_getElem?_getD]
    refine .one (.one ha (by simp) rfl rfl ?_) (by simp) rfl rfl ?_
    · simp only [gateValue, lin, endGate, Matrix.cons_val_zero, Matrix.cons_val_one, Matrix.cons_val, e0]; ring
    · simp only [gateValue, lin, endGate, Matrix.cons_val_zero, Matrix.cons_val_one, Matrix.cons_val, e1]; ring
  · intro w hA
    have hA' : Agree w (s.addMany xs L.tau) := hA
    have := (h.delta w (hA'.mono hpre)).append (block_honest hll (by rw [hvsl]; exact hpadok.1) (hw w hA')
      (fun t ht => steps_of_sorted hls' hlle hlr ht) (last := ![vs.getLastD 0, s.zeroIdx, s.zeroIdx, s.zeroIdx]) rfl)
    rw [← List.append_assoc] at this
    exact this
  · intro l0 hl0
    show (List.map (fun u => (s.vars ++ xs).getD u 0) (List.filter (fun u => decide ((s.addMany xs L.tau).tg u = l0.tau))
      (List.range' b.vars.length ((s.vars ++ xs).length - b.vars.length)))).Perm _
    have hr : List.range' b.vars.length ((s.vars ++ xs).length - b.vars.length) =
        List.range' b.vars.length (s.vars.length - b.vars.length) ++ List.range' s.vars.length xs.length := by
      rw [List.length_append, show s.vars.length + xs.length - b.vars.length = (s.vars.length - b.vars.length) + xs.length by omega,
        ← List.range'_append_1, show b.vars.length + (s.vars.length - b.vars.length) = s.vars.length by omega]
    rw [hr, List.filter_append, List.map_append]
    have told : ∀ u ∈ List.range' b.vars.length (s.vars.length - b.vars.length), (s.addMany xs L.tau).tg u = s.tg u := fun u hu =>
      tg_addMany_old h.fin.tags_len xs L.tau (by have := List.mem_range'_1.1 hu; omega)
    have tnew : ∀ u ∈ List.range' s.vars.length xs.length, (s.addMany xs L.tau).tg u = L.tau := fun u hu =>
      tg_addMany_new h.fin.tags_len xs L.tau (List.mem_range'_1.1 hu).1 (List.mem_range'_1.1 hu).2
    have f1 : (List.range' b.vars.length (s.vars.length - b.vars.length)).filter (fun u => decide ((s.addMany xs L.tau).tg u = l0.tau)) =
        (List.range' b.vars.length (s.vars.length - b.vars.length)).filter fun u => decide (s.tg u = l0.tau) :=
      List.filter_congr fun u hu => by rw [told u hu]
    rw [f1]
    rcases List.mem_append.1 hl0 with hl0 | hl0
    · have f2 : (List.range' s.vars.length xs.length).filter (fun u => decide ((s.addMany xs L.tau).tg u = l0.tau)) = [] :=
        List.filter_eq_nil_iff.2 fun u hu => by
          rw [tnew u hu, decide_eq_true_iff]; exact (hls l0 hl0).2.symm
      rw [f2, List.map_nil, List.append_nil]
      refine (List.Perm.of_eq (List.map_congr_left fun u hu => ?_)).trans (h.values l0 hl0)
      have hu := List.mem_range'_1.1 (List.mem_of_mem_filter hu)
      rw [List.getD_eq_getElem?_getD, List.getD_eq_getElem?_getD, List.getElem?_append_left (by omega)]
    · obtain rfl := List.mem_singleton.1 hl0
      have f2 : (List.range' s.vars.length xs.length).filter (fun u => decide ((s.addMany xs l0.tau).tg u = l0.tau)) = List.range' s.vars.length xs.length :=
        List.filter_eq_self.2 fun u hu => by rw [tnew u hu]; simp
      have f3 : (List.range' b.vars.length (s.vars.length - b.vars.length)).filter (fun u => decide (s.tg u = l0.tau)) = [] :=
        List.filter_eq_nil_iff.2 fun u hu => by
          have hu := List.mem_range'_1.1 hu
          obtain ⟨l', hl', e⟩ := h.fin.tg_new u hu.1 (by omega)
          rw [e, decide_eq_true_iff]; exact (hls l' hl').2
      rw [f2, f3, List.map_nil, List.nil_append]
      refine List.Perm.trans (List.Perm.of_eq ?_) (hxsp.trans (husp.map val))
      refine List.ext_getElem (by simp) fun i h1 h2 => ?_
      simp only [List.getElem_map, List.getElem_range', Nat.one_mul]
      rw [List.getD_eq_getElem?_getD, List.getElem?_append_right (by omega), Nat.add_sub_cancel_left, List.getElem?_eq_getElem h2]
      rfl

/-- All lists are sorted. -/
theorem Honest.processRanges (hT : Lifts toNat) {b : Draft F} (hb : Honest toNat b [] none) (hd : b.delta = fillerDelta b.zeroIdx) :
    ∃ s, b.processRanges toNat = .ok s ∧ HFinal toNat b b.rangeLists s := by
  have key : ∀ (ls done : List RangeList) (s0 : Draft F), (∀ l ∈ ls, l ∈ b.rangeLists) → (∀ l ∈ done, l ∈ b.rangeLists) →
      ((done ++ ls).map (·.tau)).Nodup → HFinal toNat b done s0 →
      ∃ s, ls.foldlM (fun s l => s.processRange toNat l) s0 = .ok s ∧ HFinal toNat b (done ++ ls) s := by
    intro ls
    induction ls with
    | nil => intro done s0 _ _ _ hf; exact ⟨s0, rfl, by rwa [List.append_nil]⟩
    | cons l ls ih =>
      intro done s0 h1 h2 h3 hf
      have h1' := h1 l List.mem_cons_self
      obtain ⟨s1, r1, hs1⟩ := hf.step hT hb h1' (fun l' hl' => ⟨h2 l' hl', fun e => by
        rw [List.map_append, List.nodup_append'] at h3
        exact h3.2.2 (List.mem_map.2 ⟨l', hl', e⟩) (by simp)⟩)
      obtain ⟨s2, r2, hs2⟩ := ih (done ++ [l]) s1 (fun x hx => h1 x (List.mem_cons_of_mem _ hx)) (fun x hx => by
        rcases List.mem_append.1 hx with hx | hx
        · exact h2 x hx
        · rw [List.mem_singleton.1 hx]; exact h1') (by simpa using h3) hs1
      exact ⟨s2, by rw [List.foldlM_cons]; exact bind_ok.2 ⟨s1, r1, r2⟩, by simpa using hs2⟩
  have hb' := hb.inv
  obtain ⟨s, r, hs⟩ := key b.rangeLists [] b (fun _ h => h) (by simp) (by
    rw [List.nil_append]
    refine (List.nodup_map_iff_inj_on ?_).2 ?_
    · exact List.Nodup.of_map _ hb'.targets
    · intro x hx y hy e
      by_contra hne
      exact hb'.nums_disjoint hx hy hne (a := x.tau) (by simp) (by rw [e]; simp)) ⟨⟨rfl, rfl, rfl, rfl, hb'.real_len, hb'.tags_len, le_rfl, fun _ _ => rfl,
        fun u h1 h2 => by omega, fun _ _ => rfl, fun u h1 h2 => by omega, List.prefix_rfl, by simp⟩, List.prefix_rfl, hb.arith,
        fun w _ => by rw [hd]; exact filler_honest _, by simp⟩
  exact ⟨s, r, hs⟩

end Verif.Honk.Draft
