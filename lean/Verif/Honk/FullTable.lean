import Verif.Honk.BuildFillLemmas

/-!
# The columns of the full circuit of an honest prover
-/

namespace Verif.Honk

open Acvm (Opcode)

section

variable {F : Type} [Field F]

/-- The wires are zero where the circuit has no row. -/
theorem wires_zero {c : Builder F} {key : Key F} (h : createKey c = .ok key) {j : Fin 4} {r : Nat} (hr : c.at? j r = none) : key.wires j r = 0 := by
  rw [createKey] at h
  obtain ⟨a, -, h⟩ := Draft.bind_ok.1 h
  obtain ⟨tr, ht, h⟩ := Draft.bind_ok.1 h
  obtain ⟨m, -, h⟩ := Draft.bind_ok.1 h
  obtain ⟨s, -, h⟩ := Draft.bind_ok.1 h
  obtain ⟨d, -, h⟩ := Draft.bind_ok.1 h
  have hz : tr.wires (j, r) = 0 := by
    rw [populate, Builder.cells_places] at ht
    obtain ⟨-, h2, -⟩ := populateCells_ok c.places (places_nodup _ _) ht
    rw [h2 (j, r) fun hy => by
      obtain ⟨⟨y1, y2⟩, hy, e⟩ := List.mem_map.1 hy
      obtain rfl : y1 = (j, r) := e
      rw [Builder.mem_places.1 hy] at hr
      cases hr]
  by_cases hs : c.dyadicSize ≤ c.finalActive
  · simp only [if_pos hs] at h
    cases h
  · simp only [if_neg hs] at h
    cases h
    exact hz

namespace Draft

theorem vars_foldl_add (xs : List F) (s : Draft F) : (xs.foldl addVariable s).vars = s.vars ++ xs := by
  induction xs generalizing s with
  | nil => simp
  | cons x xs ih => rw [List.foldl_cons, ih]; simp [addVariable]

variable [DecidableEq F]

theorem addFillers_vars {s b : Draft F} {extra : List F} (h : s.addFillers extra = .ok b) : ∃ vs, b.vars = vs ++ extra := by
  rw [addFillers] at h
  obtain ⟨⟨s1, i⟩, -, h⟩ := bind_ok.1 h
  obtain ⟨s2, -, h⟩ := bind_ok.1 h
  cases h
  exact ⟨_, vars_foldl_add _ _⟩

theorem createFull_circuit {toNat : F → Nat} {ops : List (Opcode F)} {inputs : List Nat} {witness : List F} {t : Draft F} {base : Nat}
    (h : createFull toNat ops inputs witness = .ok (t, base)) : createCircuit toNat ops inputs witness dummyVars = .ok t := by
  rw [createFull] at h
  obtain ⟨af, h1, h⟩ := bind_ok.1 h
  obtain ⟨_, h2, h⟩ := bind_ok.1 h
  obtain ⟨s1, h3, h⟩ := bind_ok.1 h
  obtain ⟨s2, h4, h⟩ := bind_ok.1 h
  obtain ⟨s3, h5, h⟩ := bind_ok.1 h
  obtain ⟨s4, h6, h⟩ := bind_ok.1 h
  cases h
  exact bind_ok.2 ⟨af, h1, bind_ok.2 ⟨(), h2, bind_ok.2 ⟨s1, h3, bind_ok.2 ⟨s2, h4, bind_ok.2 ⟨s3, h5, h6⟩⟩⟩⟩⟩

end Draft

end

section

variable {p : Nat} [Fact p.Prime]

/-- The full circuit of a witness that satisfies the program, with what is known about it. -/
theorem honest_full (hp : 2 ^ 14 ≤ p) (hp' : p ≤ 2 ^ 256) {ops : List (Opcode (ZMod p))} {af : Draft.AcirFormat (ZMod p)}
    (haf : Draft.acirFormat ops = .ok af) {inputs : List Nat} {witness : List (ZMod p)}
    (hlen : witness.length = Draft.maxWitness inputs ops + 1)
    (hsat : Spec.Acir.Satisfies (fun v => witness.getD v 0) Spec.Acir.noMemory ops) :
    ∃ b t base, Draft.createFull ZMod.val ops inputs witness = .ok (t, base) ∧ Draft.Honest ZMod.val b [] none ∧
      Draft.HFinal ZMod.val b b.rangeLists t ∧ ∀ k x, (dummyVars : List (ZMod p))[k]? = some x → b.vars[base + k]? = some x := by
  have hT := lifts_val hp hp'
  have hne : witness ≠ [] := by rintro rfl; simp at hlen
  obtain ⟨s1, s2, b, r1, r2, r3, hb, hd, hw, his⟩ := Draft.build_honest hT dummyVars haf hlen (opSat_of_satisfies haf hsat)
  obtain ⟨t, r4, hf⟩ := Draft.Honest.processRanges hT hb hd
  refine ⟨b, t, b.vars.length - 6, ?_, hb, hf, fun k x hk => ?_⟩
  · rw [Draft.createFull]
    refine Draft.bind_ok.2 ⟨af, haf, Draft.bind_ok.2 ⟨(), Draft.check_ok.2 (decide_eq_true (.inr hlen)), ?_⟩⟩
    refine Draft.bind_ok.2 ⟨s1, ?_, Draft.bind_ok.2 ⟨s2, r2, Draft.bind_ok.2 ⟨b, r3, Draft.bind_ok.2 ⟨t, r4, rfl⟩⟩⟩⟩
    rw [if_neg hne, decide_eq_false hne]
    exact r1
  · obtain ⟨vs, hvs⟩ := Draft.addFillers_vars r3
    rw [hvs, List.length_append, show (dummyVars : List (ZMod p)).length = 6 from rfl, Nat.add_sub_cancel, List.getElem?_append_right (by omega),
      Nat.add_sub_cancel_left, hk]

/-- The values of the constant zero and of the variables of the dummy lookup. -/
theorem full_values (hp : 2 ^ 14 ≤ p) (hp' : p ≤ 2 ^ 256) {ops : List (Opcode (ZMod p))} {inputs : List Nat} {witness : List (ZMod p)}
    (hne : witness ≠ []) (hsat : Spec.Acir.Satisfies (fun v => witness.getD v 0) Spec.Acir.noMemory ops) {t : Draft (ZMod p)} {base : Nat}
    (h : Draft.createFull ZMod.val ops inputs witness = .ok (t, base)) :
    t.vars.getD (t.rl t.zeroIdx) 0 = 0 ∧ ∀ k x, (dummyVars : List (ZMod p))[k]? = some x → t.vars.getD (t.rl (base + k)) 0 = x := by
  have hc := Draft.createFull_circuit h
  have hlen := (C114_length ZMod.val ops inputs hc).resolve_left hne
  obtain ⟨af, haf, -⟩ := Draft.bind_ok.1 hc
  obtain ⟨b, t', base', h', hb, hf, hd⟩ := honest_full hp hp' haf hlen hsat
  obtain ⟨rfl, rfl⟩ := Prod.mk.inj (Except.ok.inj (h.symm.trans h'))
  have hold : ∀ v x, b.vars[v]? = some x → t.vars.getD (t.rl v) 0 = x := fun v x hx => by
    rw [hf.fin.rl_old v (Draft.lt_of_get hx), hb.ident v (Draft.lt_of_get hx), List.getD_eq_getElem?_getD, Draft.get_mono hf.vars hx]; rfl
  exact ⟨by rw [hf.fin.zero]; exact hold _ _ hb.zero, fun k x hk => hold _ _ (hd k x hk)⟩

end

section

variable {F : Type} [Field F] [DecidableEq F] {t : Draft F} {base : Nat} {key : Key F} {entries : Nat → F × F × F × F} {r : Reads F}

theorem keyTable_selector {c : Col} (hc : c ∈ selectorCols) (i : Nat) : keyTable t key entries r c i = t.selectorAt c i := by
  simp only [selectorCols, List.mem_cons, List.not_mem_nil, or_false] at hc
  rcases hc with rfl | rfl | rfl | rfl | rfl | rfl | rfl | rfl | rfl | rfl | rfl | rfl | rfl | rfl <;> rfl

theorem keyTable_trace : IsTrace t (lookupRows t.zeroIdx base) key.size (keyTable t key entries r) where
  arith i g hg c hc := by rw [keyTable_selector hc]; exact Draft.selector_arith hg c
  delta i g hg c hc := by rw [keyTable_selector hc]; exact Draft.selector_delta hg c
  left i hi := if_pos hi
  fourth i hi := if_pos hi

theorem keyTable_wires : wiresOf (keyTable t key entries r) = key.wires := by
  funext j
  fin_cases j <;> rfl

theorem keyTable_key : HasKey key (keyTable t key entries r) :=
  ⟨by funext j; fin_cases j <;> rfl, by funext j; fin_cases j <;> rfl, rfl, rfl⟩

theorem keyTable_entry (i : Nat) : entry (keyTable t key entries r) i = entries i := rfl

/-- The value of the wires where the circuit has a row. -/
theorem full_wire (hkey : createKey (t.full base) = .ok key) {j : Fin 4} {i v : Nat} (h : (t.full base).at? j i = some v) :
    key.wires j i = t.vars.getD (t.rl v) 0 := (C105_wires hkey).1 j i v h

/-- Behind the gates of the program the wires are zero. -/
theorem full_zero (hkey : createKey (t.full base) = .ok key) (hz : t.vars.getD (t.rl t.zeroIdx) 0 = 0) (j : Fin 4) (k : Nat) :
    key.wires j (1 + t.before + k) = 0 := by
  by_cases hk : k < 10
  · rw [full_wire hkey (Draft.at_filler hk j), hz]
  · refine wires_zero hkey ?_
    rw [Builder.at?, if_neg (by omega), List.getElem?_eq_none (by rw [Draft.rows_length]; omega)]
    rfl

/-- The first row is empty. -/
theorem full_first (hkey : createKey (t.full base) = .ok key) (j : Fin 4) : key.wires j 0 = 0 := wires_zero hkey rfl

/-- Which rows look up. -/
theorem qLookup_iff (i : Nat) : (t.selectorAt .qLookup i = 0 ∨ t.selectorAt .qLookup i = 1) ∧
    (t.selectorAt .qLookup i = 1 ↔ i = 1 + t.inputs.length ∨ i = 1 + t.inputs.length + 1) := by
  have hlen : t.before = t.inputs.length + 2 + t.arith.length + t.delta.length := rfl
  have key : ∀ j x, t.selectorAt .qLookup j = x → x = 0 → ¬ (j = 1 + t.inputs.length ∨ j = 1 + t.inputs.length + 1) →
      (t.selectorAt .qLookup j = 0 ∨ t.selectorAt .qLookup j = 1) ∧
      (t.selectorAt .qLookup j = 1 ↔ j = 1 + t.inputs.length ∨ j = 1 + t.inputs.length + 1) := by
    rintro j x h rfl hn
    exact ⟨.inl h, fun h1 => absurd (h.symm.trans h1) zero_ne_one, fun h2 => absurd h2 hn⟩
  rcases t.row_cases i with h | h | h | ⟨k, g, hg, h⟩ | ⟨k, g, hg, h⟩ | ⟨k, h⟩
  · exact key _ _ (Draft.selector_input h _) rfl (by omega)
  · have e : t.selectorAt .qLookup i = 1 := by rw [h]; exact Draft.selector_lookup (k := 0) rfl .qLookup
    exact ⟨.inr e, fun _ => .inl h, fun _ => e⟩
  · have e : t.selectorAt .qLookup i = 1 := by rw [h]; exact Draft.selector_lookup (k := 1) rfl .qLookup
    exact ⟨.inr e, fun _ => .inr h, fun _ => e⟩
  · subst h; exact key _ _ (Draft.selector_arith hg _) rfl (by omega)
  · subst h; exact key _ _ (Draft.selector_delta hg _) rfl (by omega)
  · subst h
    refine key _ _ (Draft.selector_filler k _) ?_ (by omega)
    by_cases hk : k < 10
    · interval_cases k <;> rfl
    · rw [List.getElem?_eq_none (by simpa [fillerCols, fillerSelectors] using hk)]; rfl

/-- In the rows without gates of the program all gates hold. -/
theorem full_others (hkey : createKey (t.full base) = .ok key) (hz : t.vars.getD (t.rl t.zeroIdx) 0 = 0) (params : Params F) (s : Subrel) (hs : s.isGate)
    (i : Nat) (hi : ¬ GateRow t (lookupRows t.zeroIdx base) i) : s.value F params (fun c => keyTable t key entries r c i) = 0 := by
  have hlen : t.before = t.inputs.length + 2 + t.arith.length + t.delta.length := rfl
  have quiet : (∀ c ∈ [Col.qArith, .qDeltaRange, .qElliptic, .qMemory, .qNnf, .qPoseidon2External, .qPoseidon2Internal], t.selectorAt c i = 0) →
      s.value F params (fun c => keyTable t key entries r c i) = 0 := fun h => by
    simp only [List.mem_cons, List.not_mem_nil, or_false, forall_eq_or_imp, forall_eq] at h
    obtain ⟨h1, h2, h3, h4, h5, h6, h7⟩ := h
    have h1' : keyTable t key entries r .qArith i = 0 := h1
    refine row_gates h3 h4 h5 h6 h7 ?_ (by simp only [h1', zero_mul]) (.inl h2) s hs
    simp only [Subrel.value, h1', zero_mul]
  rw [GateRow, show (lookupRows t.zeroIdx base).length = 2 from rfl] at hi
  rcases t.row_cases i with h | h | h | ⟨k, g, hg, h⟩ | ⟨k, g, hg, h⟩ | ⟨k, h⟩
  · exact quiet fun c _ => Draft.selector_input h c
  · refine quiet fun c hc => ?_
    rw [h, show 1 + t.inputs.length = 1 + t.inputs.length + 0 from rfl, Draft.selector_lookup (k := 0) rfl]
    simp only [List.mem_cons, List.not_mem_nil, or_false] at hc
    rcases hc with rfl | rfl | rfl | rfl | rfl | rfl | rfl <;> rfl
  · refine quiet fun c hc => ?_
    rw [h, Draft.selector_lookup (k := 1) rfl]
    simp only [List.mem_cons, List.not_mem_nil, or_false] at hc
    rcases hc with rfl | rfl | rfl | rfl | rfl | rfl | rfl <;> rfl
  · have := (List.getElem?_eq_some_iff.1 hg).1
    omega
  · have := (List.getElem?_eq_some_iff.1 hg).1
    omega
  · subst h
    have hw := full_zero hkey hz
    have hsh : ∀ j, (if 1 + t.before + k + 1 < key.size then key.wires j (1 + t.before + k + 1) else 0) = 0 := fun j => by
      split_ifs
      · exact hw j (k + 1)
      · rfl
    refine zero_row (fun c hc => ?_) s hs
    have hsel : ∀ c ∈ [Col.qm, .qc, .ql, .qr, .qo, .q4, .qArith, .qDeltaRange], t.selectorAt c (1 + t.before + k) = 0 := fun c hc => by
      rw [Draft.selector_filler]
      by_cases hk : k < 10
      · simp only [List.mem_cons, List.not_mem_nil, or_false] at hc
        rcases hc with rfl | rfl | rfl | rfl | rfl | rfl | rfl | rfl <;> interval_cases k <;> rfl
      · rw [List.getElem?_eq_none (by simpa [fillerCols, fillerSelectors] using hk)]; rfl
    simp only [List.mem_cons, List.not_mem_nil, or_false] at hc
    rcases hc with rfl | rfl | rfl | rfl | rfl | rfl | rfl | rfl | rfl | rfl | rfl | rfl | rfl | rfl | rfl | rfl
    · exact hw 0 k
    · exact hw 1 k
    · exact hw 2 k
    · exact hw 3 k
    · exact hsh 0
    · exact hsh 1
    · exact hsh 2
    · exact hsh 3
    all_goals exact hsel _ (by simp)

/-- What the two lookups look up. -/
theorem full_lookedUp (hkey : createKey (t.full base) = .ok key)
    (hv : ∀ k x, (dummyVars : List F)[k]? = some x → t.vars.getD (t.rl (base + k)) 0 = x) :
    lookedUp (keyTable t key entries r) (1 + t.inputs.length) = (1, 1, dummyValue 95 1 1, 0) ∧
    lookedUp (keyTable t key entries r) (1 + t.inputs.length + 1) = (1, 1, dummyValue 96 1 1, 1) := by
  have hlen : t.before = t.inputs.length + 2 + t.arith.length + t.delta.length := rfl
  have hn : t.before + 10 < key.size := by rw [← Draft.rows_length (base := base)]; exact (C109_size hkey).2
  rw [dummyVars_eq] at hv
  have row0 : ∀ j v, (![base, base + 1, base + 2, t.zeroIdx] : Row) j = v → key.wires j (1 + t.inputs.length) = t.vars.getD (t.rl v) 0 :=
    fun j v h => full_wire hkey (by rw [← h]; exact Draft.at_lookup (k := 0) rfl j)
  have row1 : ∀ j v, (![base + 3, base + 4, base + 5, t.zeroIdx] : Row) j = v → key.wires j (1 + t.inputs.length + 1) = t.vars.getD (t.rl v) 0 :=
    fun j v h => full_wire hkey (by rw [← h]; exact Draft.at_lookup (k := 1) rfl j)
  have s0 : ∀ c, t.selectorAt c (1 + t.inputs.length) = _ := fun c => Draft.selector_lookup (k := 0) rfl c
  have s1 : ∀ c, t.selectorAt c (1 + t.inputs.length + 1) = _ := fun c => Draft.selector_lookup (k := 1) rfl c
  have a0 : key.wires 0 (1 + t.inputs.length) = 3 := (row0 0 _ rfl).trans (hv 0 _ rfl)
  have a1 : key.wires 1 (1 + t.inputs.length) = 3 := (row0 1 _ rfl).trans (hv 1 _ rfl)
  have a2 : key.wires 2 (1 + t.inputs.length) = dummyValue 95 1 1 + 2 * dummyValue 96 1 1 := (row0 2 _ rfl).trans (hv 2 _ rfl)
  have b0 : key.wires 0 (1 + t.inputs.length + 1) = 1 := (row1 0 _ rfl).trans (hv 3 _ rfl)
  have b1 : key.wires 1 (1 + t.inputs.length + 1) = 1 := (row1 1 _ rfl).trans (hv 4 _ rfl)
  have b2 : key.wires 2 (1 + t.inputs.length + 1) = dummyValue 96 1 1 := (row1 2 _ rfl).trans (hv 5 _ rfl)
  have hs : 1 + t.inputs.length + 1 < key.size := by omega
  constructor
  · simp only [lookedUp, keyTable, if_pos hs, a0, a1, a2, b0, b1, b2, s0, dummyStep_eq, Prod.mk.injEq]
    refine ⟨by ring, by ring, by ring, by simp⟩
  · simp only [lookedUp, keyTable, b0, b1, b2, s1, Prod.mk.injEq]
    refine ⟨by ring, by ring, by ring, by simp⟩

/-- The lookups are the answers of the two tables. -/
theorem full_reads {toNat : F → Nat} (h3 : toNat 3 = 3) (hkey : createKey (t.full base) = .ok key)
    (hv : ∀ k x, (dummyVars : List F)[k]? = some x → t.vars.getD (t.rl (base + k)) 0 = x) :
    (((List.range key.size).filter fun i => keyTable t key entries r .qLookup i = 1).map fun i => some (lookedUp (keyTable t key entries r) i)).Perm
      ((dummyTables (F := F)).flatMap fun t => t.gates.map (t.answer toNat)) := by
  have hlen : t.before = t.inputs.length + 2 + t.arith.length + t.delta.length := rfl
  have hn : t.before + 10 < key.size := by rw [← Draft.rows_length (base := base)]; exact (C109_size hkey).2
  have hp : ((List.range key.size).filter fun i => keyTable t key entries r .qLookup i = 1).Perm [1 + t.inputs.length, 1 + t.inputs.length + 1] := by
    refine (List.perm_ext_iff_of_nodup (List.nodup_range.filter _) (by simp)).2 fun i => ?_
    rw [List.mem_filter, List.mem_range, decide_eq_true_eq]
    have := (qLookup_iff (t := t) i).2
    simp only [List.mem_cons, List.not_mem_nil, or_false]
    exact ⟨fun h => this.1 h.2, fun h => ⟨by omega, this.2 h⟩⟩
  have hl := full_lookedUp (entries := entries) (r := r) hkey hv
  rw [dummy_answers h3]
  have := hp.map fun i => some (lookedUp (keyTable t key entries r) i)
  simp only [List.map_cons, List.map_nil, hl.1, hl.2] at this
  exact this

/-- Every lookup finds its entry. -/
theorem full_lookups (hkey : createKey (t.full base) = .ok key)
    (hv : ∀ k x, (dummyVars : List F)[k]? = some x → t.vars.getD (t.rl (base + k)) 0 = x) (i : Nat)
    (hi : keyTable t key (fun i => (tableRows (dummyTables (F := F))).getD i 0) r .qLookup i = 1) :
    ∃ j < key.size, entry (keyTable t key (fun i => (tableRows (dummyTables (F := F))).getD i 0) r) j =
      lookedUp (keyTable t key (fun i => (tableRows (dummyTables (F := F))).getD i 0) r) i := by
  have hn : t.before + 10 < key.size := by rw [← Draft.rows_length (base := base)]; exact (C109_size hkey).2
  have hl := full_lookedUp (entries := fun i => (tableRows (dummyTables (F := F))).getD i 0) (r := r) hkey hv
  rcases (qLookup_iff i).2.1 hi with rfl | rfl
  · refine ⟨3, by omega, ?_⟩
    rw [hl.1, keyTable_entry, tableRows, dummyTables_eq]
    simp [dummyTable, List.range_succ]
  · refine ⟨7, by omega, ?_⟩
    rw [hl.2, keyTable_entry, tableRows, dummyTables_eq]
    simp [dummyTable, List.range_succ]

end

end Verif.Honk
