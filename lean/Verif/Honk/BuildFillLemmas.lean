import Verif.Honk.BuildFill
import Verif.Props.HonkBuildHonest

/-!
# The rows of the full circuit
-/

namespace Verif.Honk

open Acvm (Opcode)

section

variable {F : Type} [Field F]

/-! ## The dummy lookup -/

theorem dummyKeys_eq : dummyKeys = [1, 1] := by decide

theorem dummyColumn1_eq : (dummyColumn1 : List F) = [1 + dummyStep * 1, 1] := by simp [dummyColumn1, dummyKeys_eq, accumulators]

theorem dummyColumn3_eq :
    (dummyColumn3 : List F) = [dummyValue 95 1 1 + dummyStep * dummyValue 96 1 1, dummyValue 96 1 1] := by
  simp [dummyColumn3, dummyKeys_eq, dummyIds, accumulators]

theorem dummyStep_eq : (dummyStep : F) = 2 := by simp [dummyStep]

theorem dummyVars_eq : (dummyVars : List F) = [3, 3, dummyValue 95 1 1 + 2 * dummyValue 96 1 1, 1, 1, dummyValue 96 1 1] := by
  simp [dummyVars, dummyColumn1_eq, dummyColumn3_eq, dummyStep_eq]

theorem dummyTables_eq : (dummyTables : List (LookupTable F)) = [dummyTable 95 0 [(1, 1)], dummyTable 96 1 [(1, 1)]] := by
  simp [dummyTables, dummyKeys_eq, dummyIds]

theorem dummyTable_rows (id i : Nat) (g : List (F × F)) : (dummyTable id i g).rows =
    [(0, 0, dummyValue id 0 0), (0, 1, dummyValue id 0 1), (1, 0, dummyValue id 1 0), (1, 1, dummyValue id 1 1)] := by
  simp [dummyTable, List.range_succ]

theorem tableSize_eq : ((dummyTables (F := F)).map (·.rows.length)).sum = 8 := by
  simp [dummyTables_eq, dummyTable_rows]

theorem tableRows_length [DecidableEq F] : (tableRows (dummyTables (F := F))).length = 8 := by
  simp [tableRows, dummyTables_eq, dummyTable_rows]

variable [DecidableEq F]

theorem dummy_index {toNat : F → Nat} (h3 : toNat 3 = 3) (id i : Nat) (g : List (F × F)) :
    (dummyTable id i g).indexOf toNat (1, 1) = .ok 3 := by
  have : (2 : F) * 1 + 1 = 3 := by norm_num
  simp only [LookupTable.indexOf, dummyTable, if_true, this, h3]
  rfl

theorem dummy_answer {toNat : F → Nat} (h3 : toNat 3 = 3) (id i : Nat) (g : List (F × F)) :
    (dummyTable id i g).answer toNat (1, 1) = some (1, 1, dummyValue id 1 1, (i : F)) := by
  rw [LookupTable.answer, dummy_index h3]
  simp only [dummyTable_rows]
  rfl

theorem dummy_answers {toNat : F → Nat} (h3 : toNat 3 = 3) :
    ((dummyTables (F := F)).flatMap fun t => t.gates.map (t.answer toNat)) =
      [some (1, 1, dummyValue 95 1 1, 0), some (1, 1, dummyValue 96 1 1, 1)] := by
  simp [dummyTables_eq, dummy_answer h3, dummyTable_gates_eq]
where dummyTable_gates_eq (id i : Nat) (g : List (F × F)) : (dummyTable id i g).gates = g := rfl

theorem dummy_reads {toNat : F → Nat} (h3 : toNat 3 = 3) {n : Nat} (hn : 8 ≤ n) : ∃ r, readCounts toNat (dummyTables (F := F)) n = .ok r := by
  have hp : readPlaces toNat 0 (dummyTables (F := F)) = .ok [3, 7] := by
    rw [dummyTables_eq]
    have e : ∀ id i : Nat, [((1 : F), (1 : F))].mapM ((dummyTable id i [((1 : F), (1 : F))]).indexOf toNat) = .ok [3] := fun id i => by
      rw [List.mapM_cons, dummy_index h3]; rfl
    simp only [readPlaces]
    rw [show (dummyTable 95 0 [((1 : F), (1 : F))]).gates = [(1, 1)] from rfl, show (dummyTable 96 1 [((1 : F), (1 : F))]).gates = [(1, 1)] from rfl, e, e]
    simp [dummyTable_rows, bind, Except.bind, pure, Except.pure]
  rw [readCounts, hp]
  simp only [bind, Except.bind, List.foldlM, readRow, if_pos (show 3 < n by omega), if_pos (show 7 < n by omega), pure, Except.pure]
  exact ⟨_, rfl⟩

theorem dummy_columns {n : Nat} (hn : 8 < n) :
    tableColumns (dummyTables (F := F)) n = .ok fun i => (tableRows (dummyTables (F := F))).getD i 0 := by
  rw [tableColumns, if_pos (by rw [tableRows_length]; exact hn)]

end

/-! ## The rows -/

section

variable {F : Type} [Field F] {t : Draft F} {base : Nat}

namespace Draft

/-- The number of rows before the blocks without gates of the program. -/
def before (t : Draft F) : Nat := t.inputs.length + 2 + t.arith.length + t.delta.length

theorem full_rows : (t.full base).rows = ((t.inputs.map fun v => ![v, v, t.zeroIdx, t.zeroIdx]) ++ lookupRows t.zeroIdx base ++
    t.arith.map (·.row) ++ t.delta.map (·.row)) ++ List.replicate 10 (fun _ => t.zeroIdx) := by
  simp only [full, toBuilder, Builder.rows, fillerCols, fillerRows, List.map_cons, List.map_nil, List.flatten_cons, List.flatten_nil,
    List.append_nil, List.append_assoc]
  rfl

theorem rows_length : (t.full base).rows.length = t.before + 10 := by
  rw [full_rows]
  simp [lookupRows, before]
  omega

theorem at_filler {k : Nat} (hk : k < 10) (j : Fin 4) : (t.full base).at? j (1 + t.before + k) = some t.zeroIdx := by
  rw [Builder.at?, if_neg (by omega), full_rows, List.getElem?_append_right (by simp [lookupRows, before]; omega)]
  rw [List.getElem?_replicate, if_pos (by simp [lookupRows, before]; omega)]
  rfl

theorem at_lookup {k : Nat} {row : Row} (hk : (lookupRows t.zeroIdx base)[k]? = some row) (j : Fin 4) :
    (t.full base).at? j (1 + t.inputs.length + k) = some (row j) := by
  have hk' := (List.getElem?_eq_some_iff.1 hk).1
  rw [Builder.at?, if_neg (by omega), full_rows, List.append_assoc, List.append_assoc, List.append_assoc,
    List.getElem?_append_right (by simp; omega), List.getElem?_append_left (by simp; omega)]
  rw [show 1 + t.inputs.length + k - 1 - (t.inputs.map fun v => ![v, v, t.zeroIdx, t.zeroIdx]).length = k by simp; omega, hk]
  rfl

theorem selector_input {i : Nat} (h : i < 1 + t.inputs.length) (c : Col) : t.selectorAt c i = 0 := by
  rw [selectorAt]
  split_ifs with h0
  · rfl
  · rw [allSelectors, List.append_assoc, List.append_assoc, List.append_assoc, List.getElem?_append_left (by simp; omega), List.getElem?_map,
      List.getElem?_eq_getElem (show i - 1 < t.inputs.length by omega)]
    rfl

theorem selector_lookup {k : Nat} {f : Col → F} (hk : (lookupSelectors : List (Col → F))[k]? = some f) (c : Col) :
    t.selectorAt c (1 + t.inputs.length + k) = f c := by
  have hk' := (List.getElem?_eq_some_iff.1 hk).1
  rw [selectorAt, if_neg (by omega), allSelectors, List.append_assoc, List.append_assoc, List.append_assoc,
    List.getElem?_append_right (by simp; omega), List.getElem?_append_left (by simp; omega)]
  rw [show 1 + t.inputs.length + k - 1 - (t.inputs.map fun _ (_ : Col) => (0 : F)).length = k by simp; omega, hk]
  rfl

theorem selector_arith {k : Nat} {g : Gate F} (hk : t.arith[k]? = some g) (c : Col) :
    t.selectorAt c (1 + t.inputs.length + 2 + k) = g.selector c := by
  have hk' := (List.getElem?_eq_some_iff.1 hk).1
  rw [selectorAt, if_neg (by omega), allSelectors, List.append_assoc, List.append_assoc,
    List.getElem?_append_right (by simp [lookupSelectors]; omega), List.getElem?_append_left (by simp [lookupSelectors]; omega), List.getElem?_map]
  simp only [List.length_append, List.length_map, show (lookupSelectors : List (Col → F)).length = 2 from rfl]
  rw [show 1 + t.inputs.length + 2 + k - 1 - (t.inputs.length + 2) = k by omega, hk]
  rfl

theorem selector_delta {k : Nat} {g : Gate F} (hk : t.delta[k]? = some g) (c : Col) :
    t.selectorAt c (1 + t.inputs.length + 2 + t.arith.length + k) = g.selector c := by
  have hk' := (List.getElem?_eq_some_iff.1 hk).1
  rw [selectorAt, if_neg (by omega), allSelectors, List.append_assoc,
    List.getElem?_append_right (by simp [lookupSelectors]; omega), List.getElem?_append_left (by simp [lookupSelectors]; omega), List.getElem?_map]
  simp only [List.length_append, List.length_map, show (lookupSelectors : List (Col → F)).length = 2 from rfl]
  rw [show 1 + t.inputs.length + 2 + t.arith.length + k - 1 - (t.inputs.length + 2 + t.arith.length) = k by omega, hk]
  rfl

theorem selector_filler (k : Nat) (c : Col) :
    t.selectorAt c (1 + t.before + k) = (((fillerCols.flatMap fillerSelectors : List (Col → F))[k]?).map (· c)).getD 0 := by
  rw [selectorAt, if_neg (by omega), allSelectors, List.getElem?_append_right (by simp [lookupSelectors, before]; omega)]
  simp only [List.length_append, List.length_map, show (lookupSelectors : List (Col → F)).length = 2 from rfl]
  rw [show 1 + t.before + k - 1 - (t.inputs.length + 2 + t.arith.length + t.delta.length) = k by simp only [before]; omega]

/-- The rows of the trace. -/
theorem row_cases (i : Nat) : i < 1 + t.inputs.length ∨ i = 1 + t.inputs.length ∨ i = 1 + t.inputs.length + 1 ∨
    (∃ k g, t.arith[k]? = some g ∧ i = 1 + t.inputs.length + 2 + k) ∨
    (∃ k g, t.delta[k]? = some g ∧ i = 1 + t.inputs.length + 2 + t.arith.length + k) ∨ ∃ k, i = 1 + t.before + k := by
  by_cases h1 : i < 1 + t.inputs.length
  · exact .inl h1
  by_cases h2 : i < 1 + t.inputs.length + 2
  · have : i = 1 + t.inputs.length ∨ i = 1 + t.inputs.length + 1 := by omega
    tauto
  by_cases h3 : i < 1 + t.inputs.length + 2 + t.arith.length
  · exact .inr (.inr (.inr (.inl ⟨i - (1 + t.inputs.length + 2), _, List.getElem?_eq_getElem (by omega), by omega⟩)))
  by_cases h4 : i < 1 + t.inputs.length + 2 + t.arith.length + t.delta.length
  · exact .inr (.inr (.inr (.inr (.inl ⟨i - (1 + t.inputs.length + 2 + t.arith.length), _, List.getElem?_eq_getElem (by omega), by omega⟩))))
  · exact .inr (.inr (.inr (.inr (.inr ⟨i - (1 + t.before), by simp only [before]; omega⟩))))

end Draft

/-- In a row of zeros all gates hold, whatever the selectors of the blocks are. -/
theorem zero_row {p : Params F} {e : Col → F} (h : ∀ c ∈ [Col.wl, .wr, .wo, .w4, .wlShift, .wrShift, .woShift, .w4Shift, .qm, .qc, .ql, .qr, .qo, .q4,
    .qArith, .qDeltaRange], e c = 0) : ∀ s : Subrel, s.isGate → s.value F p e = 0 := by
  simp only [List.mem_cons, List.not_mem_nil, or_false, forall_eq_or_imp, forall_eq] at h
  obtain ⟨h1, h2, h3, h4, h5, h6, h7, h8, h9, h10, h11, h12, h13, h14, h15, h16⟩ := h
  intro s hs
  cases s
  case perm0 | perm1 | lookup0 | lookup1 | lookup2 => exact absurd hs (by simp [Subrel.isGate])
  all_goals simp [Subrel.value, h1, h2, h3, h4, h5, h6, h7, h8, h9, h10, h11, h12, h13, h14, h15, h16]

end

end Verif.Honk
