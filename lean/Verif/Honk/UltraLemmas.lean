import Verif.Honk.FullTable
import Verif.Honk.Ultra
import Verif.Honk.BuildSame

/-!
# The key and the columns of the prover
-/

namespace Verif.Honk

open Acvm (Opcode)
open Draft (Sim Same)

section

variable {F : Type} [Field F] [DecidableEq F]

/-- The entries of the tables. -/
def dummyEntries : Nat → F × F × F × F := fun i => (tableRows (dummyTables (F := F))).getD i 0

theorem instance_ok {toNat : F → Nat} {ops : List (Opcode F)} {inputs : List Nat} {witness : List F} {key : Key F} {table : Col → Nat → F}
    (h : proverInstance toNat ops inputs witness = .ok (key, table)) :
    ∃ t base r, Draft.createFull toNat ops inputs witness = .ok (t, base) ∧ createKey (t.full base) = .ok key ∧
      readCounts toNat (dummyTables (F := F)) key.size = .ok r ∧ tableColumns (dummyTables (F := F)) key.size = .ok dummyEntries ∧
      table = keyTable t key dummyEntries r := by
  rw [proverInstance] at h
  obtain ⟨⟨t, base⟩, h1, h⟩ := Draft.bind_ok.1 h
  obtain ⟨key', h2, h⟩ := Draft.bind_ok.1 h
  obtain ⟨entries, h3, h⟩ := Draft.bind_ok.1 h
  obtain ⟨r, h4, h⟩ := Draft.bind_ok.1 h
  cases h
  have hn : t.before + 10 < key.size := by rw [← Draft.rows_length (base := base)]; exact (C109_size h2).2
  obtain rfl : entries = dummyEntries := Except.ok.inj (h3.symm.trans (dummy_columns (by omega)))
  exact ⟨t, base, r, h1, h2, h4, h3, rfl⟩

namespace Draft

theorem createFull_same (toNat : F → Nat) (ops : List (Opcode F)) (inputs : List Nat) {witness witness' : List F}
    (h : witness = [] ∨ witness.length = maxWitness inputs ops + 1) (h' : witness' = [] ∨ witness'.length = maxWitness inputs ops + 1) :
    Sim (fun x y => Same x.1 y.1 ∧ x.2 = y.2) (createFull toNat ops inputs witness) (createFull toNat ops inputs witness') := by
  rw [createFull, createFull]
  refine (Sim.refl _).bind fun af _ e => ?_
  subst e
  have hc : ∀ w : List F, w = [] ∨ w.length = maxWitness inputs ops + 1 →
      check (decide (w = [] ∨ w.length = maxWitness inputs ops + 1)) "ACIR witness size does not match max witness index" = .ok () := fun w hw => by
    rw [check, if_pos (decide_eq_true hw)]
  have hl : ∀ w : List F, w = [] ∨ w.length = maxWitness inputs ops + 1 →
      (if w = [] then List.replicate (maxWitness inputs ops + 1) 0 else w).length = maxWitness inputs ops + 1 := fun w hw => by
    by_cases hn : w = []
    · rw [if_pos hn]; simp
    · rw [if_neg hn]; exact hw.resolve_left hn
  simp only [hc witness h, hc witness' h']
  refine Sim.bind (R := Eq) (.ok rfl) fun _ _ _ => ?_
  refine (init_same ((hl _ h).trans (hl _ h').symm) inputs _ _).bind fun s t h => ?_
  refine (h.buildConstraints toNat af).bind fun s t h => (h.addFillers rfl).bind fun s t h => (h.processRanges toNat).bind fun s' t' h' => ?_
  exact .ok ⟨h', by simp only [h.vars]⟩

end Draft

/-- The circuits with other values have the same key up to the wires. -/
theorem full_same {t t' : Draft F} (h : Same t t') (base : Nat) : t'.full base = { t.full base with vars := t'.vars } := by
  obtain ⟨v, a1, a2, a3, a4, a5, a6, a7, a8, a9, a10, a11, a12⟩ := h
  obtain ⟨⟩ := t
  obtain ⟨⟩ := t'
  simp only at *
  subst a1 a2 a3 a4 a5 a6 a7 a8 a9 a10 a11 a12
  rfl

theorem selectorAt_same {t t' : Draft F} (h : Same t t') (c : Col) (i : Nat) : t'.selectorAt c i = t.selectorAt c i := by
  rw [Draft.selectorAt, Draft.selectorAt, Draft.allSelectors, Draft.allSelectors, h.inputs, h.arith, h.delta]

theorem keyTable_same {t t' : Draft F} (h : Same t t') {k k' : Key F} (hk : EqualUpToWires k k') (e : Nat → F × F × F × F) (r : Reads F) {c : Col}
    (hc : c ∈ Col.precomputed) : keyTable t' k' e r c = keyTable t k e r c := by
  rw [EqualUpToWires] at hk
  have hs : k'.sigma = k.sigma := by rw [hk]
  have hd : k'.id = k.id := by rw [hk]
  have h1 : k'.lagrangeFirst = k.lagrangeFirst := by rw [hk]
  have h2 : k'.lagrangeLast = k.lagrangeLast := by rw [hk]
  simp only [Col.precomputed, Col.all, List.take_succ_cons, List.take_zero, List.mem_cons, List.not_mem_nil, or_false] at hc
  rcases hc with rfl | rfl | rfl | rfl | rfl | rfl | rfl | rfl | rfl | rfl | rfl | rfl | rfl | rfl | rfl | rfl | rfl | rfl | rfl | rfl | rfl |
    rfl | rfl | rfl | rfl | rfl | rfl | rfl <;> first
    | exact funext fun i => selectorAt_same h _ i
    | simp only [keyTable, hs, hd, h1, h2]

end

end Verif.Honk
