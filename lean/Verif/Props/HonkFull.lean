import Verif.Honk.UltraLemmas

/-!
# The key and the columns of a UltraHonk prover (C119)
-/

namespace Verif.Honk

open Acvm (Opcode)

section

variable {F : Type} [Field F] [DecidableEq F]

/-- A prover with a witness and the maker of the verification key, who has none, get the same precomputed columns, the same size and the
same place and number of public inputs. -/
theorem C119_key {toNat : F → Nat} {ops : List (Opcode F)} {inputs : List Nat} {witness : List F} {key : Key F} {table : Col → Nat → F}
    (h : proverInstance toNat ops inputs witness = .ok (key, table)) :
    ∃ key' table', proverInstance toNat ops inputs [] = .ok (key', table') ∧ key'.size = key.size ∧ key'.publicOffset = key.publicOffset ∧
      key'.publicInputs.length = key.publicInputs.length ∧ ∀ c ∈ Col.precomputed, table' c = table c := by
  obtain ⟨t, base, r, h1, h2, h3, h4, rfl⟩ := instance_ok h
  have hlen := C114_length toNat ops inputs (Draft.createFull_circuit h1)
  have hs := Draft.createFull_same toNat ops inputs hlen (.inl rfl : ([] : List F) = [] ∨ _)
  rw [h1] at hs
  generalize hy : Draft.createFull toNat ops inputs [] = y at hs
  cases hs with
  | @ok _ x hs =>
    obtain ⟨t', base'⟩ := x
    obtain ⟨hs, rfl⟩ : Draft.Same t t' ∧ base = base' := hs
    have e := full_same hs base
    rcases C114_key (t.full base) (xs := t'.vars) hs.vars with ⟨k, k', g1, g2, g3⟩ | ⟨e, g1, -⟩
    · obtain rfl : key = k := Except.ok.inj (h2.symm.trans g1)
      rw [← e] at g2
      have hsz : k'.size = key.size := by rw [g3]
      refine ⟨k', keyTable t' k' dummyEntries r, ?_, hsz, by rw [g3], ?_, fun c hc => keyTable_same hs g3 _ _ hc⟩
      · rw [proverInstance, hy]
        refine Draft.bind_ok.2 ⟨_, rfl, Draft.bind_ok.2 ⟨k', g2, ?_⟩⟩
        rw [hsz]
        exact Draft.bind_ok.2 ⟨_, h4, Draft.bind_ok.2 ⟨_, h3, rfl⟩⟩
      · rw [(C105_wires h2).2, (C105_wires g2).2, List.length_map, List.length_map]
        show t'.inputs.length = t.inputs.length
        rw [hs.inputs]
    · rw [h2] at g1; cases g1

end

section

variable {p : Nat} [Fact p.Prime]

/-- The columns of a prover whose witness satisfies the program describe an execution of a circuit with this key: all gates hold, also
those that the builder adds so that no selector is zero, all copies are equal, and all lookups find their entry.  The public inputs are
those of the program and the eight zeros of the pairing point. -/
theorem C119_execution (hp : 2 ^ 14 ≤ p) (hp' : p ≤ 2 ^ 256) {ops : List (Opcode (ZMod p))} {inputs : List Nat} {witness : List (ZMod p)}
    (hne : witness ≠ []) (hsat : Spec.Acir.Satisfies (fun v => witness.getD v 0) Spec.Acir.noMemory ops) {key : Key (ZMod p)}
    {table : Col → Nat → ZMod p} (h : proverInstance ZMod.val ops inputs witness = .ok (key, table)) (params : Params (ZMod p)) :
    ∃ c, createKey c = .ok key ∧ c.rows ≠ [] ∧ HasKey key table ∧
      Execution c params key.size (inputs.map (fun v => witness.getD v 0) ++ List.replicate 8 0) table := by
  obtain ⟨t, base, r, h1, h2, h3, h4, rfl⟩ := instance_ok h
  obtain ⟨hz, hv⟩ := full_values hp hp' hne hsat h1
  have hrows : (t.full base).rows ≠ [] := fun e => by
    have := Draft.rows_length (t := t) (base := base)
    rw [e] at this
    simp at this
  exact ⟨t.full base, h2, hrows, keyTable_key, C115_execution hp hp' hne hsat (Draft.createFull_circuit h1) h2 keyTable_trace keyTable_wires
    (fun s hs i _ hi => full_others h2 hz params s hs i hi) fun i _ hi => full_lookups h2 hv i hi⟩

/-- With the columns that the prover computes after the challenges `β` and `γ`, all relations hold that the sumcheck proves, unless one
of the fractions in these columns has the denominator zero. -/
theorem C119_satisfied (hp : 2 ^ 14 ≤ p) (hp' : p ≤ 2 ^ 256) {ops : List (Opcode (ZMod p))} {inputs : List Nat} {witness : List (ZMod p)}
    (hne : witness ≠ []) (hsat : Spec.Acir.Satisfies (fun v => witness.getD v 0) Spec.Acir.noMemory ops) {key : Key (ZMod p)}
    {table : Col → Nat → ZMod p} (h : proverInstance ZMod.val ops inputs witness = .ok (key, table)) (params : Params (ZMod p))
    {β γ δ : ZMod p} {z : Nat → ZMod p} (hz : grandProduct key (wiresOf table) β γ = .ok z)
    (hδ : publicInputDelta β γ (inputs.map (fun v => witness.getD v 0) ++ List.replicate 8 0) key.publicOffset = .ok δ)
    (hden : ∀ i < key.size, ∀ j, wiresOf table j i + key.sigma j i * β + γ ≠ 0)
    (hden' : ∀ i < key.size, table .qLookup i = 1 ∨ table .lookupReadTags i = 1 →
      readTerm { params with beta := β, gamma := γ } (fun c => table c i) ≠ 0 ∧
      writeTerm { params with beta := β, gamma := γ } (fun c => table c i) ≠ 0) :
    Satisfied { params with beta := β, gamma := γ, publicInputDelta := δ } key.size
      (complete key.size z (lookupInverses β γ table) table) := by
  have hex := C119_execution hp hp' hne hsat h params
  obtain ⟨t, base, r, h1, h2, h3, h4, rfl⟩ := instance_ok h
  obtain ⟨hz0, hv⟩ := full_values hp hp' hne hsat h1
  have hrows : (t.full base).rows ≠ [] := fun e => by
    have := Draft.rows_length (t := t) (base := base)
    rw [e] at this
    simp at this
  have hex : Execution (t.full base) params key.size (inputs.map (fun v => witness.getD v 0) ++ List.replicate 8 0)
      (keyTable t key dummyEntries r) := C115_execution hp hp' hne hsat (Draft.createFull_circuit h1) h2 keyTable_trace keyTable_wires
    (fun s hs i _ hi => full_others h2 hz0 params s hs i hi) fun i _ hi => full_lookups h2 hv i hi
  obtain ⟨val, hcopies⟩ := hex.copies
  have h3' : (3 : ZMod p).val = 3 := by
    have := ZMod.val_natCast_of_lt (show 3 < p by omega)
    exact_mod_cast this
  exact C109_complete h2 hrows keyTable_key hex.gates hcopies hz hδ h3 h4 (fun i _ => keyTable_entry i) rfl rfl
    (fun i _ => (qLookup_iff i).1) (full_reads h3' h2 hv)
    (fun i _ hi j => hden i (hi.trans (C109_size h2).2) j) hden'

/-- The public inputs that the prover sends. -/
theorem C119_public (hp : 2 ^ 14 ≤ p) (hp' : p ≤ 2 ^ 256) {ops : List (Opcode (ZMod p))} {inputs : List Nat} {witness : List (ZMod p)}
    (hne : witness ≠ []) (hsat : Spec.Acir.Satisfies (fun v => witness.getD v 0) Spec.Acir.noMemory ops) {key : Key (ZMod p)}
    {table : Col → Nat → ZMod p} (h : proverInstance ZMod.val ops inputs witness = .ok (key, table)) :
    key.publicInputs = inputs.map (fun v => witness.getD v 0) ++ List.replicate 8 0 := by
  obtain ⟨t, base, r, h1, h2, h3, h4, rfl⟩ := instance_ok h
  obtain ⟨hz0, hv⟩ := full_values hp hp' hne hsat h1
  have hex : Execution (t.full base) ⟨0, 0, 0, 0, 0, 0, 0, 0, 0, 0, 0⟩ key.size (inputs.map (fun v => witness.getD v 0) ++ List.replicate 8 0)
      (keyTable t key dummyEntries r) := C115_execution hp hp' hne hsat (Draft.createFull_circuit h1) h2 keyTable_trace keyTable_wires
    (fun s hs i _ hi => full_others h2 hz0 _ s hs i hi) fun i _ hi => full_lookups h2 hv i hi
  obtain ⟨val, hcopies⟩ := hex.copies
  rw [(C105_wires h2).2, ← hcopies.publics]
  refine List.map_congr_left fun v hv => ?_
  obtain ⟨k, hk⟩ := List.mem_iff_getElem?.1 (show v ∈ t.inputs from hv)
  have hat : (t.full base).at? 0 (1 + k) = some v := by
    have hk' := (List.getElem?_eq_some_iff.1 hk).1
    rw [Builder.at?, if_neg (by omega), Draft.full_rows, List.append_assoc, List.append_assoc, List.append_assoc,
      List.getElem?_append_left (by simp; omega), List.getElem?_map, Nat.add_sub_cancel_left, hk]
    rfl
  rw [← (C105_wires h2).1 _ _ _ hat, ← hcopies.wires _ _ _ hat, keyTable_wires]

end

end Verif.Honk
