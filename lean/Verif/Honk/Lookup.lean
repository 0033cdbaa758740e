import Verif.Honk.Trace

/-!
# The lookup argument of UltraHonk

Models the lookup tables and the counts of the reads of `/repo/co-noir/co-builder/src/keys/plain_proving_key.rs` (for public
indices) and `compute_logderivative_inverses` of `/repo/co-noir/ultrahonk/src/oink/oink_prover.rs`.
-/

namespace Verif.Honk

variable {F : Type} [Field F] [DecidableEq F]

/-- `PlookupBasicTable`, with the keys of the gates that read from it.
`/repo/co-noir/co-builder/src/types/plookup.rs:2010-2014, 2053-2067` -/
structure LookupTable (F : Type) where
  rows : List (F × F × F)
  tableIndex : Nat
  useTwinKeys : Bool
  step : F
  /-- `requires_index_map` -/
  mapped : Bool
  gates : List (F × F)

/-- `calculate_table_index` and `initialize_index_map`: a later row with the same first column replaces an earlier one.  `toNat` is
the canonical representative of a field element.
`/repo/co-noir/co-builder/src/types/plookup.rs:2034-2051, 2415-2419`,
`/repo/co-noir/co-builder/src/keys/plain_proving_key.rs:397-401, 450-459` -/
def LookupTable.indexOf (toNat : F → Nat) (t : LookupTable F) (g : F × F) : Except Err Nat :=
  let key := if t.useTwinKeys then t.step * g.1 + g.2 else g.1
  if t.mapped then
    match (t.rows.zipIdx.reverse.find? fun r => r.1.1 = key) with
    | some r => .ok r.2
    | none => .error (.panic "no entry found for key")
  else .ok (toNat key)

/-- The entry that a gate reads: the row of its table with the number of the table. -/
def LookupTable.answer (toNat : F → Nat) (t : LookupTable F) (g : F × F) : Option (F × F × F × F) :=
  match t.indexOf toNat g with
  | .ok k => t.rows[k]?.map fun r => (r.1, r.2.1, r.2.2, (t.tableIndex : F))
  | .error _ => none

/-- The rows of the tables with their table index, one table after the other.
`/repo/co-noir/co-builder/src/keys/plain_proving_key.rs:361-372` -/
def tableRows (tables : List (LookupTable F)) : List (F × F × F × F) :=
  tables.flatMap fun t => t.rows.map fun r => (r.1, r.2.1, r.2.2, (t.tableIndex : F))

/-- `construct_lookup_table_polynomials`.  `/repo/co-noir/co-builder/src/keys/plain_proving_key.rs:342-373` -/
def tableColumns (tables : List (LookupTable F)) (n : Nat) : Except Err (Nat → F × F × F × F) :=
  if n > (tableRows tables).length then .ok fun i => (tableRows tables).getD i 0
  else .error (.panic "assertion failed")

/-- The columns of the counts and of the tags. -/
structure Reads (F : Type) where
  counts : Nat → F
  tags : Nat → F

/-- One gate reads: the count of the row grows and the row is tagged.
`/repo/co-noir/co-builder/src/keys/plain_proving_key.rs:461-471` -/
def readRow (n : Nat) (st : Reads F) (i : Nat) : Except Err (Reads F) :=
  if i < n then .ok ⟨Function.update st.counts i (st.counts i + 1), Function.update st.tags i 1⟩
  else .error (.panic "index out of bounds")

/-- The places that the gates read, with the offset of each table.
`/repo/co-noir/co-builder/src/keys/plain_proving_key.rs:383-401, 473` -/
def readPlaces (toNat : F → Nat) : Nat → List (LookupTable F) → Except Err (List Nat)
  | _, [] => .ok []
  | offset, t :: ts => do
    let here ← t.gates.mapM (t.indexOf toNat)
    let there ← readPlaces toNat (offset + t.rows.length) ts
    pure (here.map (offset + ·) ++ there)

/-- `construct_lookup_read_counts`.  The loop computes the index of a gate just before the gate reads; here all indices come first.
`/repo/co-noir/co-builder/src/keys/plain_proving_key.rs:375-476` -/
def readCounts (toNat : F → Nat) (tables : List (LookupTable F)) (n : Nat) : Except Err (Reads F) := do
  let places ← readPlaces toNat 0 tables
  places.foldlM (readRow n) ⟨fun _ => 0, fun _ => 0⟩

/-- `compute_read_term`.  `/repo/co-noir/ultrahonk/src/oink/oink_prover.rs:148-179` -/
def computeReadTerm (β γ : F) (e : Col → F) : F :=
  let betaSqr := β * β
  let betaCube := betaSqr * β
  let entry1 := e .wl + γ + e .qr * e .wlShift
  let entry2 := e .wr + e .qm * e .wrShift
  let entry3 := e .wo + e .qc * e .woShift
  entry1 + entry2 * β + entry3 * betaSqr + e .qo * betaCube

/-- `compute_write_term`.  `/repo/co-noir/ultrahonk/src/oink/oink_prover.rs:182-195` -/
def computeWriteTerm (β γ : F) (e : Col → F) : F :=
  let betaSqr := β * β
  let betaCube := betaSqr * β
  e .table1 + γ + e .table2 * β + e .table3 * betaSqr + e .table4 * betaCube

/-- `compute_logderivative_inverses`: the products at the rows that read or are read, and zero elsewhere, inverted; zero stays zero.
`/repo/co-noir/ultrahonk/src/oink/oink_prover.rs:197-236` -/
def lookupInverses (β γ : F) (table : Col → Nat → F) (i : Nat) : F :=
  (if table .qLookup i = 1 ∨ table .lookupReadTags i = 1 then
    computeReadTerm β γ (fun c => table c i) * computeWriteTerm β γ (fun c => table c i) else 0)⁻¹

end Verif.Honk
