import Mathlib.Algebra.Algebra.Defs
import Mathlib.Algebra.Field.Basic
import Mathlib.Algebra.BigOperators.Group.Finset.Basic
import Mathlib.Data.Nat.Bits

/-!
# Specification: UltraHonk circuits and what the sumcheck proves about them

A circuit with a witness is a table: each of the 41 columns has one value per row.  This file says what it means that a row satisfies
the gates, as one equation for each of the 28 subrelations, and what a proof says about the columns: the values of their multilinear
extensions at one point.
-/

namespace Verif.Honk

/-- The columns of the table.  The shifted columns hold the value of the next row. -/
inductive Col
  | qm | qc | ql | qr | qo | q4 | qLookup | qArith | qDeltaRange | qElliptic | qMemory | qNnf | qPoseidon2External | qPoseidon2Internal
  | sigma1 | sigma2 | sigma3 | sigma4 | id1 | id2 | id3 | id4 | table1 | table2 | table3 | table4 | lagrangeFirst | lagrangeLast
  | wl | wr | wo | w4 | zPerm | lookupInverses | lookupReadCounts | lookupReadTags
  | wlShift | wrShift | woShift | w4Shift | zPermShift
  deriving DecidableEq

/-- All columns, in the order in which a proof lists them. -/
def Col.all : List Col :=
  [.qm, .qc, .ql, .qr, .qo, .q4, .qLookup, .qArith, .qDeltaRange, .qElliptic, .qMemory, .qNnf, .qPoseidon2External, .qPoseidon2Internal,
   .sigma1, .sigma2, .sigma3, .sigma4, .id1, .id2, .id3, .id4, .table1, .table2, .table3, .table4, .lagrangeFirst, .lagrangeLast,
   .wl, .wr, .wo, .w4, .zPerm, .lookupInverses, .lookupReadCounts, .lookupReadTags,
   .wlShift, .wrShift, .woShift, .w4Shift, .zPermShift]

/-- The challenges and constants that the gates depend on. -/
structure Params (R : Type) where
  eta1 : R
  eta2 : R
  eta3 : R
  beta : R
  gamma : R
  publicInputDelta : R
  /-- the constant `b` of the embedded curve `y² = x³ + b` -/
  curveB : R
  /-- the diagonal of the internal matrix of Poseidon2, minus one -/
  diag1 : R
  diag2 : R
  diag3 : R
  diag4 : R

/-- The subrelations, in the order in which they are batched. -/
inductive Subrel
  | arith0 | arith1
  | perm0 | perm1
  | lookup0 | lookup1 | lookup2
  | delta0 | delta1 | delta2 | delta3
  | elliptic0 | elliptic1
  | memory0 | memory1 | memory2 | memory3 | memory4 | memory5
  | nnf0
  | external0 | external1 | external2 | external3
  | internal0 | internal1 | internal2 | internal3
  deriving DecidableEq

/-- All subrelations in order: the subrelation at position `k` is batched with the factor `α ^ k`. -/
def Subrel.all : List Subrel :=
  [.arith0, .arith1, .perm0, .perm1, .lookup0, .lookup1, .lookup2, .delta0, .delta1, .delta2, .delta3, .elliptic0, .elliptic1,
   .memory0, .memory1, .memory2, .memory3, .memory4, .memory5, .nnf0,
   .external0, .external1, .external2, .external3, .internal0, .internal1, .internal2, .internal3]

section value

variable (F : Type) [Field F] {R : Type} [CommRing R] [Algebra F R]

/-- `D (D - 1) (D - 2) (D - 3)`: zero if `D` is one of `0, 1, 2, 3`. -/
def inRange (d : R) : R := d * (d - 1) * (d - 2) * (d - 3)

/-- What a row looks up. -/
def readTerm (p : Params R) (e : Col → R) : R :=
  (e .wl + e .qr * e .wlShift) + (e .wr + e .qm * e .wrShift) * p.beta + (e .wo + e .qc * e .woShift) * p.beta ^ 2 + e .qo * p.beta ^ 3
    + p.gamma

/-- What a row offers to be looked up. -/
def writeTerm (p : Params R) (e : Col → R) : R :=
  e .table1 + e .table2 * p.beta + e .table3 * p.beta ^ 2 + e .table4 * p.beta ^ 3 + p.gamma

/-- The fingerprint of the memory access of a row, without the kind of the access. -/
def record (p : Params R) (w1 w2 w3 : R) : R := w1 * p.eta1 + w2 * p.eta2 + w3 * p.eta3

/-- The value of a subrelation in a row.  The row satisfies the subrelation if the value is zero. -/
def Subrel.value (p : Params R) (e : Col → R) : Subrel → R
  | .arith0 =>
    e .qArith * ((-(2 : F)⁻¹) • ((e .qArith - 3) * e .qm * e .wl * e .wr) + e .ql * e .wl + e .qr * e .wr + e .qo * e .wo
      + e .q4 * e .w4 + e .qc + (e .qArith - 1) * e .w4Shift)
  | .arith1 => e .qArith * (e .qArith - 1) * (e .qArith - 2) * (e .wl + e .w4 - e .wlShift + e .qm)
  | .perm0 =>
    (e .zPerm + e .lagrangeFirst)
        * ((e .wl + e .id1 * p.beta + p.gamma) * (e .wr + e .id2 * p.beta + p.gamma)
          * (e .wo + e .id3 * p.beta + p.gamma) * (e .w4 + e .id4 * p.beta + p.gamma))
      - (e .zPermShift + e .lagrangeLast * p.publicInputDelta)
        * ((e .wl + e .sigma1 * p.beta + p.gamma) * (e .wr + e .sigma2 * p.beta + p.gamma)
          * (e .wo + e .sigma3 * p.beta + p.gamma) * (e .w4 + e .sigma4 * p.beta + p.gamma))
  | .perm1 => e .lagrangeLast * e .zPermShift
  | .lookup0 =>
    readTerm p e * writeTerm p e * e .lookupInverses - (e .lookupReadTags + e .qLookup - e .lookupReadTags * e .qLookup)
  | .lookup1 =>
    e .qLookup * (writeTerm p e * e .lookupInverses) - e .lookupReadCounts * (readTerm p e * e .lookupInverses)
  | .lookup2 => e .lookupReadTags * (e .lookupReadTags - 1)
  | .delta0 => e .qDeltaRange * inRange (e .wr - e .wl)
  | .delta1 => e .qDeltaRange * inRange (e .wo - e .wr)
  | .delta2 => e .qDeltaRange * inRange (e .w4 - e .wo)
  | .delta3 => e .qDeltaRange * inRange (e .wlShift - e .w4)
  | .elliptic0 =>
    let (x1, y1, x2, y2, x3) := (e .wr, e .wo, e .wlShift, e .w4Shift, e .wrShift)
    e .qElliptic * (1 - e .qm) * ((x1 + x2 + x3) * (x2 - x1) ^ 2 - y2 ^ 2 - y1 ^ 2 + 2 * (y1 * y2 * e .ql))
      + e .qElliptic * e .qm * ((x3 + 2 * x1) * (4 * y1 ^ 2) - 9 * (x1 * (y1 ^ 2 - p.curveB)))
  | .elliptic1 =>
    let (x1, y1, x2, y2, x3, y3) := (e .wr, e .wo, e .wlShift, e .w4Shift, e .wrShift, e .woShift)
    e .qElliptic * (1 - e .qm) * ((y1 + y3) * (x2 - x1) + (x3 - x1) * (y2 * e .ql - y1))
      + e .qElliptic * e .qm * (3 * x1 ^ 2 * (x1 - x3) - 2 * y1 * (y1 + y3))
  | .memory0 =>
    let access := e .w4 - record p (e .wl) (e .wr) (e .wo) - e .qc
    e .qMemory * (
      -(access * e .ql * e .qr) - access * e .qm * e .ql
        + ((1 - (e .wlShift - e .wl)) * (e .wrShift - e .wr) - e .wo) * e .q4 * e .ql
        + e .qo * (access ^ 2 - access))
  | .memory1 => e .qMemory * (e .ql * e .qr) * ((1 - (e .wlShift - e .wl)) * (e .w4Shift - e .w4))
  | .memory2 => e .qMemory * (e .ql * e .qr) * ((e .wlShift - e .wl) * ((e .wlShift - e .wl) - 1))
  | .memory3 =>
    let next := e .w4Shift - record p (e .wlShift) (e .wrShift) (e .woShift)
    e .qMemory * e .qo * ((1 - (e .wlShift - e .wl)) * (e .woShift - e .wo) * (1 - next))
  | .memory4 => e .qMemory * e .qo * ((e .wlShift - e .wl) * ((e .wlShift - e .wl) - 1))
  | .memory5 =>
    let next := e .w4Shift - record p (e .wlShift) (e .wrShift) (e .woShift)
    e .qMemory * e .qo * (next * (next - 1))
  | .nnf0 =>
    let cross := e .wl * e .wrShift + e .wlShift * e .wr
    let low := cross * 2 ^ 68 + e .wlShift * e .wrShift
    e .qNnf * (
      e .qr * (
        e .qo * (low - (e .wo + e .w4))
          + e .q4 * ((e .wl * e .w4 + e .wr * e .wo - e .woShift) * 2 ^ 68 - e .w4Shift + cross)
          + e .qm * (low + e .w4 - (e .woShift + e .w4Shift)))
        + e .qo * (
          e .q4 * (e .wl + e .wr * 2 ^ 14 + e .wo * 2 ^ 28 + e .wlShift * 2 ^ 42 + e .wrShift * 2 ^ 56 - e .w4)
            + e .qm * (e .wo + e .w4 * 2 ^ 14 + e .wlShift * 2 ^ 28 + e .wrShift * 2 ^ 42 + e .woShift * 2 ^ 56 - e .w4Shift)))
  | .external0 =>
    let (u1, u2, u3, u4) := ((e .wl + e .ql) ^ 5, (e .wr + e .qr) ^ 5, (e .wo + e .qo) ^ 5, (e .w4 + e .q4) ^ 5)
    e .qPoseidon2External * (5 * u1 + 7 * u2 + u3 + 3 * u4 - e .wlShift)
  | .external1 =>
    let (u1, u2, u3, u4) := ((e .wl + e .ql) ^ 5, (e .wr + e .qr) ^ 5, (e .wo + e .qo) ^ 5, (e .w4 + e .q4) ^ 5)
    e .qPoseidon2External * (4 * u1 + 6 * u2 + u3 + u4 - e .wrShift)
  | .external2 =>
    let (u1, u2, u3, u4) := ((e .wl + e .ql) ^ 5, (e .wr + e .qr) ^ 5, (e .wo + e .qo) ^ 5, (e .w4 + e .q4) ^ 5)
    e .qPoseidon2External * (u1 + 3 * u2 + 5 * u3 + 7 * u4 - e .woShift)
  | .external3 =>
    let (u1, u2, u3, u4) := ((e .wl + e .ql) ^ 5, (e .wr + e .qr) ^ 5, (e .wo + e .qo) ^ 5, (e .w4 + e .q4) ^ 5)
    e .qPoseidon2External * (u1 + u2 + 4 * u3 + 6 * u4 - e .w4Shift)
  | .internal0 =>
    let sum := (e .wl + e .ql) ^ 5 + e .wr + e .wo + e .w4
    e .qPoseidon2Internal * ((e .wl + e .ql) ^ 5 * p.diag1 + sum - e .wlShift)
  | .internal1 =>
    let sum := (e .wl + e .ql) ^ 5 + e .wr + e .wo + e .w4
    e .qPoseidon2Internal * (e .wr * p.diag2 + sum - e .wrShift)
  | .internal2 =>
    let sum := (e .wl + e .ql) ^ 5 + e .wr + e .wo + e .w4
    e .qPoseidon2Internal * (e .wo * p.diag3 + sum - e .woShift)
  | .internal3 =>
    let sum := (e .wl + e .ql) ^ 5 + e .wr + e .wo + e .w4
    e .qPoseidon2Internal * (e .w4 * p.diag4 + sum - e .w4Shift)

end value

variable {F : Type} [Field F]

/-- A table satisfies the circuit: every row satisfies every subrelation, except `lookup1`, whose values have to add up to zero. -/
structure Satisfied (p : Params F) (n : Nat) (table : Col → Nat → F) : Prop where
  rows : ∀ s : Subrel, s ≠ .lookup1 → ∀ i < n, s.value F p (fun c => table c i) = 0
  lookups : ∑ i ∈ Finset.range n, Subrel.lookup1.value F p (fun c => table c i) = 0

/-- The multilinear extension of the function `f` on `{0, …, 2 ^ k - 1}` at the point `u` with `k` coordinates: the coordinate `j`
belongs to the bit `j` of the argument. -/
def extension (f : Nat → F) (u : List F) : F :=
  ∑ i ∈ Finset.range (2 ^ u.length), f i * ∏ j ∈ Finset.range u.length, if i.testBit j then u.getD j 0 else 1 - u.getD j 0

/-- A column of `n` rows, continued by zeros. -/
def pad (n : Nat) (f : Nat → F) : Nat → F := fun i => if i < n then f i else 0

/-- The columns as lists. -/
def columns (n : Nat) (table : Col → Nat → F) : Col → List F := fun c => (List.range n).map (table c)

/-- The challenges of a run: each is drawn after a message and depends on all messages so far. -/
def challenges {M : Type} (ch : List M → F) (sent : List M) : List F :=
  (List.range sent.length).map fun r => ch (sent.take (r + 1))

/-- A row of the table in which the first variables have been replaced by `us`. -/
def partialRow (table : Col → Nat → F) (us : List F) (l : Nat) : Col → F := fun c =>
  extension (fun i => table c (i + 2 ^ us.length * l)) us

/-- The prover leaves out the permutation on an edge between two rows if `zPerm` equals `zPermShift` there, and the lookups if
neither is `qLookup` set nor a read counted.  Nothing is lost by this if the subrelations are zero along the edge. -/
structure SkipsNothing (p : Params F) (a b : Col → F) : Prop where
  perm : a .zPerm = a .zPermShift → b .zPerm = b .zPermShift →
    ∀ t, ∀ s ∈ [Subrel.perm0, .perm1], s.value F p (fun c => a c + (b c - a c) * t) = 0
  lookup : a .qLookup = 0 → b .qLookup = 0 → a .lookupReadCounts = 0 → b .lookupReadCounts = 0 →
    ∀ t, ∀ s ∈ [Subrel.lookup0, .lookup1, .lookup2], s.value F p (fun c => a c + (b c - a c) * t) = 0

/-- A row that looks as if it took part in no copy constraint takes part in none, and a row that looks as if it took part in no lookup
takes part in none. -/
structure Tidy (row : Col → F) : Prop where
  perm : row .zPerm = row .zPermShift →
    row .sigma1 = row .id1 ∧ row .sigma2 = row .id2 ∧ row .sigma3 = row .id3 ∧ row .sigma4 = row .id4 ∧
      row .lagrangeFirst = 0 ∧ row .lagrangeLast = 0
  lookup : row .qLookup = 0 → row .lookupReadCounts = 0 → row .lookupReadTags = 0 ∧ row .lookupInverses = 0

/-- The challenges `us` do not cancel: if a combination of rows looks as if it took part in no copy constraint or in no lookup, then
so does each of the rows. -/
structure NoCancellation (table : Col → Nat → F) (us : List F) : Prop where
  perm : ∀ l, partialRow table us l .zPerm = partialRow table us l .zPermShift →
    ∀ i < 2 ^ us.length, table .zPerm (i + 2 ^ us.length * l) = table .zPermShift (i + 2 ^ us.length * l)
  lookup : ∀ l, ∀ c ∈ [Col.qLookup, .lookupReadCounts], partialRow table us l c = 0 →
    ∀ i < 2 ^ us.length, table c (i + 2 ^ us.length * l) = 0

/-- The numbers `0, …, k - 1` are different field elements. -/
def Distinct (F : Type) [Field F] (k : Nat) : Prop := ∀ i < k, ∀ j < k, (i : F) = (j : F) → i = j

end Verif.Honk
