import Verif.Props.Honk
import Verif.Props.HonkOink
import Verif.Props.HonkLookup

/-!
# What an accepted UltraHonk proof says about the circuit (C109)
-/

namespace Verif.Honk

variable {F : Type} [Field F] [DecidableEq F]

/-- The subrelations of the gates: all but those of the permutation and of the lookup argument. -/
def Subrel.isGate (s : Subrel) : Prop := s ∉ [perm0, perm1, lookup0, lookup1, lookup2]

/-- The columns describe an execution of the circuit with the given public inputs: every row satisfies every gate, equal variables
have equal values, the sorted lists are permutations of the values they sort, and everything looked up is in the tables. -/
structure Execution (c : Builder F) (p : Params F) (n : Nat) (pub : List F) (table : Col → Nat → F) : Prop where
  gates : ∀ s : Subrel, s.isGate → ∀ i < n, s.value F p (fun c => table c i) = 0
  copies : ∃ val, Assigned c (wiresOf table) pub val
  lookups : ∀ i < n, table .qLookup i = 1 → ∃ j < n, entry table j = lookedUp table i

/-- The columns that the prover commits to after the challenges `β` and `γ`. -/
def complete (n : Nat) (zPerm inverses : Nat → F) (table : Col → Nat → F) : Col → Nat → F
  | .zPerm => zPerm
  | .zPermShift => fun i => if i + 1 < n then zPerm (i + 1) else 0
  | .lookupInverses => inverses
  | c => table c

omit [DecidableEq F] in
theorem gate_congr {s : Subrel} (hs : s.isGate) (p : Params F) (β γ δ : F) (n : Nat) (z inv : Nat → F) (table : Col → Nat → F) (i : Nat) :
    s.value F { p with beta := β, gamma := γ, publicInputDelta := δ } (fun c => complete n z inv table c i) =
      s.value F p (fun c => table c i) := by
  cases s <;> first | rfl | exact absurd hs (by simp [Subrel.isGate])

/-- The table has the columns of the proving key. -/
structure HasKey (key : Key F) (table : Col → Nat → F) : Prop where
  sigma : ![table .sigma1, table .sigma2, table .sigma3, table .sigma4] = key.sigma
  id : ![table .id1, table .id2, table .id3, table .id4] = key.id
  first : table .lagrangeFirst = key.lagrangeFirst
  last : table .lagrangeLast = key.lagrangeLast

omit [DecidableEq F] in
/-- The size of the table is a power of two, and the rows fit into it. -/
theorem C109_size {c : Builder F} {key : Key F} (h : createKey c = .ok key) :
    (∃ d, key.size = 2 ^ d) ∧ c.rows.length < key.size := by
  obtain ⟨s, d, hk⟩ := createKey_ok h
  have := rows_le_dyadic c
  rw [hk.size]
  refine ⟨?_, by omega⟩
  rw [Builder.dyadicSize]
  split_ifs
  · exact ⟨_, rfl⟩
  · exact ⟨_, rfl⟩

/-- Soundness of the whole interactive proof.  Let the columns that are committed before `β` and `γ` be fixed, and assume that they do
not describe an execution of the circuit.  Then the verifier accepts only if one of the challenges falls into a small set that was
fixed before the challenge was drawn. -/
theorem C109_sound {c : Builder F} {key : Key F} (h : createKey c = .ok key) (hne : c.rows ≠ []) {d D T : Nat} (hd : key.size = 2 ^ d)
    (hD : d ≤ D) (hF : Distinct F (5 * 2 ^ 28 + T + 2 ^ d + 8)) (htags : ∀ k ∈ c.used, c.tag k < T ∧ c.tauOf (c.tag k) < T)
    (p : Params F) (table : Col → Nat → F) (hkey : HasKey key table)
    (hq : ∀ i < 2 ^ d, table .qLookup i = 0 ∨ table .qLookup i = 1)
    (pub : List F) (hpub : pub.length = c.inputs.length) (hwrong : ¬ Execution c p (2 ^ d) pub table) :
    ∃ Bβ : Finset F, Bβ.card ≤ (10 * c.rows.length) ^ 2 + 3 * (2 ^ d) ^ 2 ∧ ∀ β ∉ Bβ,
    ∃ Bγ : Finset F, Bγ.card ≤ 5 * c.rows.length + 4 + 4 * 2 ^ d ∧ ∀ γ ∉ Bγ,
    ∀ δ, publicInputDelta β γ pub key.publicOffset = .ok δ → ∀ zPerm inverses : Nat → F, zPerm 0 = 0 →
    ∃ Bα : Finset F, Bα.card ≤ 27 ∧ ∀ α ∉ Bα,
    ∃ Bg : Finset F, Bg.card ≤ 2 ^ d - 1 ∧ ∀ g ∉ Bg,
    ∃ bad : List F → Univariate F 8 → Finset F, (∀ us u, (bad us u).card ≤ 7) ∧
      ∀ (ch : List (Univariate F 8) → F) (proof : SumcheckProof F 8),
        sumcheckVerify { p with beta := β, gamma := γ, publicInputDelta := δ } (alphaPowers α) (gateChallenges g D) ch D proof =
          .ok true →
        (∀ x, proof.evaluations x = extension (pad (2 ^ d) (complete (2 ^ d) zPerm inverses table x))
          ((challenges ch proof.univariates).take D)) →
        ∃ j < D, (challenges ch proof.univariates).getD j 0
          ∈ bad ((challenges ch proof.univariates).take j) (proof.univariates.getD j 0) := by
  obtain ⟨B1, hB1, h1⟩ := C106_sound h hne (T := T) (fun i hi j hj => hF i (by omega) j (by omega)) htags (wiresOf table) pub hpub
  obtain ⟨B2, hB2, h2⟩ := C108_sound (n := 2 ^ d) (fun i hi j hj => hF i (by omega) j (by omega)) table hq
  refine ⟨B1 ∪ B2, (Finset.card_union_le _ _).trans (Nat.add_le_add hB1 hB2), fun β hβ => ?_⟩
  rw [Finset.mem_union, not_or] at hβ
  obtain ⟨G1, hG1, h1⟩ := h1 β hβ.1
  obtain ⟨G2, hG2, h2⟩ := h2 β hβ.2
  refine ⟨G1 ∪ G2, (Finset.card_union_le _ _).trans (Nat.add_le_add hG1 hG2), fun γ hγ δ hδ z inv hz => ?_⟩
  rw [Finset.mem_union, not_or] at hγ
  refine C104_sound (fun i hi j hj => hF i (by omega) j (by omega)) _ d D hD (complete (2 ^ d) z inv table) fun hs => hwrong ?_
  refine ⟨fun s hg i hi => ?_, ?_, ?_⟩
  · rw [← gate_congr hg p β γ δ (2 ^ d) z inv table i]
    exact hs.rows s (fun e => by subst e; exact absurd hg (by simp [Subrel.isGate])) i hi
  · refine h1 γ hγ.1 { p with beta := β, gamma := γ, publicInputDelta := δ } (complete (2 ^ d) z inv table) rfl rfl hδ
      ⟨hkey.sigma, hkey.id, hkey.first, hkey.last, fun i _ => by rw [hd]; rfl⟩ rfl hz fun i hi => ?_
    rw [hd] at hi
    exact ⟨hs.rows .perm0 (by decide) i hi, hs.rows .perm1 (by decide) i hi⟩
  · refine h2 γ hγ.2 { p with beta := β, gamma := γ, publicInputDelta := δ } inv rfl rfl ?_
    have he : ∀ s ∈ [Subrel.lookup0, .lookup1, .lookup2], ∀ i,
        s.value F { p with beta := β, gamma := γ, publicInputDelta := δ } (fun c => Function.update table .lookupInverses inv c i) =
        s.value F { p with beta := β, gamma := γ, publicInputDelta := δ } (fun c => complete (2 ^ d) z inv table c i) := by
      intro s hs i
      simp only [List.mem_cons, List.not_mem_nil, or_false] at hs
      rcases hs with rfl | rfl | rfl <;> rfl
    refine ⟨fun i hi => ?_, fun i hi => ?_, ?_⟩
    · rw [he _ (by simp)]; exact hs.rows .lookup0 (by decide) i hi
    · rw [he _ (by simp)]; exact hs.rows .lookup2 (by decide) i hi
    · rw [Finset.sum_congr rfl fun i _ => he .lookup1 (by simp) i]
      exact hs.lookups

/-- Completeness: if the columns describe an execution of the circuit, and the tables, counts and tags are the computed ones, then with
the columns that the prover computes after `β` and `γ` the table satisfies all relations. -/
theorem C109_complete {c : Builder F} {key : Key F} (h : createKey c = .ok key) (hne : c.rows ≠ [])
    {β γ δ : F} {p : Params F} {table : Col → Nat → F} (hkey : HasKey key table) {pub : List F} {val : Nat → F}
    (hgates : ∀ s : Subrel, s.isGate → ∀ i < key.size, s.value F p (fun c => table c i) = 0)
    (hcopies : Assigned c (wiresOf table) pub val)
    {z : Nat → F} (hz : grandProduct key (wiresOf table) β γ = .ok z)
    (hδ : publicInputDelta β γ pub key.publicOffset = .ok δ)
    {toNat : F → Nat} {tables : List (LookupTable F)} {r : Reads F} {cols : Nat → F × F × F × F}
    (hr : readCounts toNat tables key.size = .ok r) (hc : tableColumns tables key.size = .ok cols)
    (htable : ∀ i < key.size, entry table i = cols i)
    (hcounts : table .lookupReadCounts = r.counts) (htags : table .lookupReadTags = r.tags)
    (hq : ∀ i < key.size, table .qLookup i = 0 ∨ table .qLookup i = 1)
    (hreads : (((List.range key.size).filter fun i => table .qLookup i = 1).map fun i => some (lookedUp table i)).Perm
      (tables.flatMap fun t => t.gates.map (t.answer toNat)))
    (hden : ∀ i, 1 ≤ i → i < c.rows.length → ∀ j, wiresOf table j i + key.sigma j i * β + γ ≠ 0)
    (hden' : ∀ i < key.size, table .qLookup i = 1 ∨ table .lookupReadTags i = 1 →
      readTerm { p with beta := β, gamma := γ } (fun c => table c i) ≠ 0 ∧
      writeTerm { p with beta := β, gamma := γ } (fun c => table c i) ≠ 0) :
    Satisfied { p with beta := β, gamma := γ, publicInputDelta := δ } key.size
      (complete key.size z (lookupInverses β γ table) table) := by
  have hl : LookupRelations { p with beta := β, gamma := γ, publicInputDelta := δ } key.size
      (complete key.size z (lookupInverses β γ table) table) :=
    C107_complete hr hc htable hcounts htags rfl hq hreads hden'
  have hp := C105_complete h hne (p := { p with beta := β, gamma := γ, publicInputDelta := δ })
    (table := complete key.size z (lookupInverses β γ table) table)
    ⟨hkey.sigma, hkey.id, hkey.first, hkey.last, fun i _ => rfl⟩ hcopies hz hδ hden
  refine ⟨fun s hs i hi => ?_, hl.sum⟩
  by_cases hg : s.isGate
  · rw [gate_congr hg]
    exact hgates s hg i hi
  · rw [Subrel.isGate, not_not] at hg
    simp only [List.mem_cons, List.not_mem_nil, or_false] at hg
    rcases hg with rfl | rfl | rfl | rfl | rfl
    · exact (hp i hi).1
    · exact (hp i hi).2
    · exact hl.inverses i hi
    · exact absurd rfl hs
    · exact hl.tags i hi

/-! ## An example -/

namespace WholeDemo

open OinkDemo (P demo demoKey demo_ok demo_wires demo_columns demo_assigned demoDelta demo_delta demoTable demoZ)

/-- A table with three entries and one read. -/
def tables : List (LookupTable P) := [⟨[(1, 1, 1), (5, 6, 7), (2, 4, 8)], 0, false, 0, true, [(5, 0)]⟩]

/-- The counts. -/
def reads : Reads P := match readCounts (fun _ => 0) tables demoKey.size with
  | .ok r => r
  | .error _ => ⟨fun _ => 0, fun _ => 0⟩

theorem reads_ok : readCounts (fun _ => 0) tables demoKey.size = .ok reads := by
  have h : (readCounts (fun _ => 0) tables demoKey.size).isOk = true := by decide +kernel
  rw [reads]
  cases hc : readCounts (fun _ => 0) tables demoKey.size with
  | ok k => rfl
  | error e => rw [hc] at h; cases h

/-- The circuit of the permutation example.  The row 2 is a multiplication `7 * 5 - 9 - 26 = 0` and the row 3 looks up `(5, 6, 7)`. -/
def columnsDemo : Col → Nat → P
  | .qArith => fun i => if i = 2 then 1 else 0
  | .qm => fun i => if i = 2 then 1 else 0
  | .qo => fun i => if i = 2 then -1 else 0
  | .qc => fun i => if i = 2 then -26 else 0
  | .qLookup => fun i => if i = 3 then 1 else 0
  | .table1 => fun i => [1, 5, 2].getD i 0
  | .table2 => fun i => [1, 6, 4].getD i 0
  | .table3 => fun i => [1, 7, 8].getD i 0
  | .lookupReadCounts => reads.counts
  | .lookupReadTags => reads.tags
  | c => demoTable c

/-- The parameters before the challenges. -/
def start : Params P := ⟨1, 2, 3, 0, 0, 0, 4, 5, 6, 7, 8⟩

theorem gates_ok : ∀ s : Subrel, s.isGate → ∀ i < demoKey.size, s.value P start (fun c => columnsDemo c i) = 0 := by
  have h : ∀ s ∈ Subrel.all, s ∉ [Subrel.perm0, .perm1, .lookup0, .lookup1, .lookup2] → ∀ i < demoKey.size,
      s.value P start (fun c => columnsDemo c i) = 0 := by decide +kernel
  intro s hs
  exact h s (by cases s <;> decide) hs

/-- The hypotheses of the completeness theorem hold of the example. -/
theorem satisfied : Satisfied { start with beta := 3, gamma := 11, publicInputDelta := demoDelta } demoKey.size
    (complete demoKey.size demoZ (lookupInverses 3 11 columnsDemo) columnsDemo) :=
  C109_complete (β := 3) (γ := 11) (p := start) (table := columnsDemo) demo_ok (by decide)
    ⟨demo_columns.sigma, demo_columns.id, rfl, rfl⟩ gates_ok (val := fun k => demo.vars.getD k 0) demo_assigned
    (by
      obtain ⟨z, hz⟩ := C105_runs demo_ok (by decide) demoKey.wires 3 11
      show grandProduct demoKey (wiresOf demoTable) 3 11 = .ok demoZ
      rw [demo_wires, demoZ, hz])
    demo_delta reads_ok (cols := fun i => (tableRows tables).getD i 0)
    (by rw [tableColumns, if_pos (by decide +kernel)]) (by decide +kernel) rfl rfl (by decide +kernel) (by decide +kernel)
    (by
      have h : ∀ i < 4, 1 ≤ i → ∀ j, demoKey.wires j i + demoKey.sigma j i * 3 + 11 ≠ 0 := by decide +kernel
      intro i h1 h2 j
      show wiresOf demoTable j i + _ + _ ≠ 0
      rw [demo_wires]
      exact h i h2 h1 j)
    (by decide +kernel)

theorem size : demoKey.size = 2 ^ 4 := by decide +kernel

/-- A wrong lookup. -/
def wrong : Col → Nat → P := Function.update columnsDemo .table3 fun i => [1, 9, 8].getD i 0

theorem wrong_no : ¬ Execution demo start (2 ^ 4) [7] wrong := fun h => by
  obtain ⟨j, hj, hji⟩ := h.lookups 3 (by decide) (by decide +kernel)
  have : ∀ j < 2 ^ 4, entry wrong j ≠ lookedUp wrong 3 := by decide +kernel
  exact this j hj hji

/-- The hypotheses of the soundness theorem hold of it. -/
example := C109_sound demo_ok (by decide) (T := 3) size (D := 28) (by decide) (OinkDemo.distinct_P _) (by decide +kernel) start wrong
  ⟨demo_columns.sigma, demo_columns.id, rfl, rfl⟩ (by decide +kernel) [7] rfl wrong_no

end WholeDemo

end Verif.Honk
