import Verif.Honk.Sumcheck
import Verif.Rep3.Arith
import Verif.Shamir.Arith
import Verif.Groth16.Model

/-!
# The relations of UltraHonk on shares

Models `/repo/co-noir/co-ultrahonk/src/co_decider/relations`.  The code works on a batch: the points of all edges that a relation does
not skip, seven for each edge, one vector for each column.  Here a batch is the list of its points, and operations on whole vectors
(`add_many`, `mul_with_public_many`, …) are written for one point.  What matters for the protocol is kept: which vectors are put
together for one call of `mul_many`, and in which order.
-/

namespace Verif.Honk

/-- The operations of `NoirUltraHonkProver` that the sumcheck uses, apart from linear ones.  A half share is what a party has after
a local multiplication.  `/repo/co-noir/co-noir-common/src/mpc/mod.rs:20-292` -/
structure SumDriver (c : Type → Type) (F A : Type) where
  addPub : A → F → A
  addPubHalf : F → F → F
  toHalf : F → A → F
  localMulMany : List A → List A → c (List F)
  mulMany : List A → List A → c (List A)
  reshare : List F → c (List A)
  openMany : List A → c (List F)
  fail : {α : Type} → Err → c α

/-- The columns that depend on the witness: they are shared, the others are public.
`/repo/co-noir/co-noir-common/src/polynomials/entities.rs:38-43`, `64-72` -/
def Col.shared : Col → Bool
  | .wl | .wr | .wo | .w4 | .zPerm | .lookupInverses | .lookupReadCounts | .lookupReadTags
  | .wlShift | .wrShift | .woShift | .w4Shift | .zPermShift => true
  | _ => false

/-- One point of a batch: the public columns, the shared columns and the scaling factor.
`/repo/co-noir/co-ultrahonk/src/types_batch.rs:45-53` -/
structure Point (F A : Type) where
  q : Col → F
  e : Col → A
  s : F

section

variable {F A X : Type} {c : Type → Type} [Monad c] [Field F] [Zero A] [Add A] [Sub A] [Neg A] [SMul F A]

/-- One call of `mul_many` for several vectors: the vectors of the left factors are put one behind the other, and so are those of the right
factors; the result is cut into as many pieces.  The piece `j` at a point belongs to the pair of factors `j`. -/
def mulRound (d : SumDriver c F A) (xs : List X) (fs : List (X → A × A)) : c (List (X × (Nat → A))) := do
  let mul ← d.mulMany (fs.flatMap fun f => xs.map fun x => (f x).1) (fs.flatMap fun f => xs.map fun x => (f x).2)
  pure (xs.zipIdx.map fun x => (x.1, fun j => mul.getD (j * xs.length + x.2) 0))

/-! ## Arithmetic -/

/-- The half shares of `compute_r0`.
`/repo/co-noir/co-ultrahonk/src/co_decider/relations/ultra_arithmetic_relation.rs:88-165` -/
def arithHalf (d : SumDriver c F A) (x : Point F A) (mul : F) : F :=
  let tmp := mul * x.q .qm
  let tmp := tmp * (x.q .qArith - 3)
  let tmp := tmp * -(2 : F)⁻¹
  let tmp := tmp + (d.toHalf (x.q .ql) (x.e .wl) + d.toHalf (x.q .qr) (x.e .wr) + d.toHalf (x.q .qo) (x.e .wo) + d.toHalf (x.q .q4) (x.e .w4))
  let tmp := d.addPubHalf tmp (x.q .qc)
  let tmp := tmp + d.toHalf (x.q .qArith - 1) (x.e .w4Shift)
  let tmp := tmp * x.q .qArith
  tmp * x.s

/-- `compute_r0`.  `/repo/co-noir/co-ultrahonk/src/co_decider/relations/ultra_arithmetic_relation.rs:88-165` -/
def coArith0 (d : SumDriver c F A) (b : List (Point F A)) : c (List F) := do
  let mul ← d.localMulMany (b.map (·.e .wl)) (b.map (·.e .wr))
  pure (List.zipWith (arithHalf d) b mul)

/-- `compute_r1`.  `/repo/co-noir/co-ultrahonk/src/co_decider/relations/ultra_arithmetic_relation.rs:190-220` -/
def arithResult (addPub : A → F → A) (x : Point F A) : Subrel → A
  | .arith1 =>
    let tmp := x.e .wl + x.e .w4
    let tmp := tmp - x.e .wlShift
    let tmp := addPub tmp (x.q .qm)
    let tmp := (x.q .qArith - 2) • tmp
    let tmp := (x.q .qArith - 1) • tmp
    let tmp := x.q .qArith • tmp
    x.s • tmp
  | _ => 0

/-! ## Permutation -/

/-- `/repo/co-noir/co-ultrahonk/src/co_decider/relations/permutation_relation.rs:92-147` -/
def permFactors1 (addPub : A → F → A) (p : Params F) : List (Point F A → A × A) :=
  [fun x => (addPub (x.e .wl) (x.q .id1 * p.beta + p.gamma), addPub (x.e .wr) (x.q .id2 * p.beta + p.gamma)),
   fun x => (addPub (x.e .wl) (x.q .sigma1 * p.beta + p.gamma), addPub (x.e .wr) (x.q .sigma2 * p.beta + p.gamma)),
   fun x => (addPub (x.e .wo) (x.q .id3 * p.beta + p.gamma), addPub (x.e .w4) (x.q .id4 * p.beta + p.gamma)),
   fun x => (addPub (x.e .wo) (x.q .sigma3 * p.beta + p.gamma), addPub (x.e .w4) (x.q .sigma4 * p.beta + p.gamma))]

/-- The two halves of the products.  `/repo/co-noir/co-ultrahonk/src/co_decider/relations/permutation_relation.rs:148-149` -/
def permFactors2 : List (Point F A × (Nat → A) → A × A) :=
  [fun x => (x.2 0, x.2 2), fun x => (x.2 1, x.2 3)]

/-- `/repo/co-noir/co-ultrahonk/src/co_decider/relations/permutation_relation.rs:226-235` -/
def permFactors3 (addPub : A → F → A) (p : Params F) : List ((Point F A × (Nat → A)) × (Nat → A) → A × A) :=
  [fun x => (x.2 0, addPub (x.1.1.e .zPerm) (x.1.1.q .lagrangeFirst)),
   fun x => (x.2 1, addPub (x.1.1.e .zPermShift) (x.1.1.q .lagrangeLast * p.publicInputDelta))]

/-- `/repo/co-noir/co-ultrahonk/src/co_decider/relations/permutation_relation.rs:236-246` -/
def permResult (x : ((Point F A × (Nat → A)) × (Nat → A)) × (Nat → A)) : Subrel → A
  | .perm0 => x.1.1.1.s • (x.2 0 - x.2 1)
  | .perm1 => x.1.1.1.s • (x.1.1.1.q .lagrangeLast • x.1.1.1.e .zPermShift)
  | _ => 0

/-- `/repo/co-noir/co-ultrahonk/src/co_decider/relations/permutation_relation.rs:66-150`, `202-249` -/
def coPerm (d : SumDriver c F A) (p : Params F) (b : List (Point F A)) : c (List (Subrel → A)) := do
  let x ← mulRound d b (permFactors1 d.addPub p)
  let x ← mulRound d x permFactors2
  let x ← mulRound d x (permFactors3 d.addPub p)
  pure (x.map permResult)

/-! ## Lookups -/

/-- `compute_inverse_exists`.
`/repo/co-noir/co-ultrahonk/src/co_decider/relations/logderiv_lookup_relation.rs:77-90` -/
def coInverseExists (addPub : A → F → A) (x : Point F A) : A :=
  addPub (-(x.q .qLookup • x.e .lookupReadTags) + x.e .lookupReadTags) (x.q .qLookup)

/-- `compute_read_term`.
`/repo/co-noir/co-ultrahonk/src/co_decider/relations/logderiv_lookup_relation.rs:92-138` -/
def coReadTerm (addPub : A → F → A) (p : Params F) (x : Point F A) : A :=
  let betaSqr := p.beta * p.beta
  let betaCube := betaSqr * p.beta
  let entry1 := addPub (x.q .qr • x.e .wlShift + x.e .wl) p.gamma
  let entry2 := x.q .qm • x.e .wrShift + x.e .wr
  let entry3 := x.q .qc • x.e .woShift + x.e .wo
  addPub (entry1 + p.beta • entry2 + betaSqr • entry3) (x.q .qo * betaCube)

/-- `compute_write_term`.
`/repo/co-noir/co-ultrahonk/src/co_decider/relations/logderiv_lookup_relation.rs:142-169` -/
def coWriteTerm (p : Params F) (x : Point F A) : F :=
  let betaSqr := p.beta * p.beta
  let betaCube := betaSqr * p.beta
  x.q .table1 + p.gamma + x.q .table2 * p.beta + x.q .table3 * betaSqr + x.q .table4 * betaCube

/-- `/repo/co-noir/co-ultrahonk/src/co_decider/relations/logderiv_lookup_relation.rs:271` -/
def lookupFactors1 (addPub : A → F → A) (p : Params F) : List (Point F A → A × A) :=
  [fun x => (coReadTerm addPub p x, x.e .lookupInverses)]

/-- `/repo/co-noir/co-ultrahonk/src/co_decider/relations/logderiv_lookup_relation.rs:289-296` -/
def lookupFactors2 : List (Point F A × (Nat → A) → A × A) :=
  [fun x => (x.2 0, x.1.e .lookupReadCounts), fun x => (x.1.e .lookupReadTags, x.1.e .lookupReadTags)]

/-- `/repo/co-noir/co-ultrahonk/src/co_decider/relations/logderiv_lookup_relation.rs:272-309` -/
def lookupResult (addPub : A → F → A) (p : Params F) (x : (Point F A × (Nat → A)) × (Nat → A)) : Subrel → A
  | .lookup0 => x.1.1.s • (coWriteTerm p x.1.1 • x.1.2 0 - coInverseExists addPub x.1.1)
  | .lookup1 => x.1.1.q .qLookup • (coWriteTerm p x.1.1 • x.1.1.e .lookupInverses) - x.2 0
  | .lookup2 => x.1.1.s • (x.2 1 - x.1.1.e .lookupReadTags)
  | _ => 0

/-- `/repo/co-noir/co-ultrahonk/src/co_decider/relations/logderiv_lookup_relation.rs:255-314` -/
def coLookup (d : SumDriver c F A) (p : Params F) (b : List (Point F A)) : c (List (Subrel → A)) := do
  let x ← mulRound d b (lookupFactors1 d.addPub p)
  let x ← mulRound d x lookupFactors2
  pure (x.map (lookupResult d.addPub p))

/-! ## Ranges -/

/-- `/repo/co-noir/co-ultrahonk/src/co_decider/relations/delta_range_constraint_relation.rs:144-179` -/
def deltaFactors1 (addPub : A → F → A) : List (Point F A → A × A) :=
  [fun x => (addPub (x.e .wr - x.e .wl) (-1), addPub (x.e .wr - x.e .wl) (-1)),
   fun x => (addPub (x.e .wo - x.e .wr) (-1), addPub (x.e .wo - x.e .wr) (-1)),
   fun x => (addPub (x.e .w4 - x.e .wo) (-1), addPub (x.e .w4 - x.e .wo) (-1)),
   fun x => (addPub (x.e .wlShift - x.e .w4) (-1), addPub (x.e .wlShift - x.e .w4) (-1)),
   fun x => (addPub (x.e .wr - x.e .wl) (-2), addPub (x.e .wr - x.e .wl) (-2)),
   fun x => (addPub (x.e .wo - x.e .wr) (-2), addPub (x.e .wo - x.e .wr) (-2)),
   fun x => (addPub (x.e .w4 - x.e .wo) (-2), addPub (x.e .w4 - x.e .wo) (-2)),
   fun x => (addPub (x.e .wlShift - x.e .w4) (-2), addPub (x.e .wlShift - x.e .w4) (-2))]

/-- One is subtracted from the squares, then the first half is multiplied with the second.
`/repo/co-noir/co-ultrahonk/src/co_decider/relations/delta_range_constraint_relation.rs:180-186` -/
def deltaFactors2 (addPub : A → F → A) : List (Point F A × (Nat → A) → A × A) :=
  [fun x => (addPub (x.2 0) (-1), addPub (x.2 4) (-1)),
   fun x => (addPub (x.2 1) (-1), addPub (x.2 5) (-1)),
   fun x => (addPub (x.2 2) (-1), addPub (x.2 6) (-1)),
   fun x => (addPub (x.2 3) (-1), addPub (x.2 7) (-1))]

/-- `/repo/co-noir/co-ultrahonk/src/co_decider/relations/delta_range_constraint_relation.rs:187-214` -/
def deltaResult (x : (Point F A × (Nat → A)) × (Nat → A)) : Subrel → A
  | .delta0 => x.1.1.s • (x.1.1.q .qDeltaRange • x.2 0)
  | .delta1 => x.1.1.s • (x.1.1.q .qDeltaRange • x.2 1)
  | .delta2 => x.1.1.s • (x.1.1.q .qDeltaRange • x.2 2)
  | .delta3 => x.1.1.s • (x.1.1.q .qDeltaRange • x.2 3)
  | _ => 0

/-- `/repo/co-noir/co-ultrahonk/src/co_decider/relations/delta_range_constraint_relation.rs:126-218` -/
def coDelta (d : SumDriver c F A) (b : List (Point F A)) : c (List (Subrel → A)) := do
  let x ← mulRound d b (deltaFactors1 d.addPub)
  let x ← mulRound d x (deltaFactors2 d.addPub)
  pure (x.map deltaResult)

/-! ## The embedded curve -/

/-- `/repo/co-noir/co-ultrahonk/src/co_decider/relations/elliptic_relation.rs:132-168` -/
def ellipticFactors1 : List (Point F A → A × A) :=
  [fun x => (x.e .wo, x.e .wo),
   fun x => (x.e .w4Shift, x.e .w4Shift),
   fun x => (x.e .wo, x.e .w4Shift),
   fun x => (x.e .wlShift - x.e .wr, x.e .wlShift - x.e .wr),
   fun x => (x.e .wo + x.e .woShift, x.e .wlShift - x.e .wr),
   fun x => (x.q .ql • x.e .w4Shift - x.e .wo, x.e .wrShift - x.e .wr),
   fun x => (x.e .wr + x.e .wr + x.e .wr, x.e .wr)]

/-- `/repo/co-noir/co-ultrahonk/src/co_decider/relations/elliptic_relation.rs:169-195` -/
def ellipticFactors2 (addPub : A → F → A) (p : Params F) : List (Point F A × (Nat → A) → A × A) :=
  [fun x => (x.1.e .wrShift + x.1.e .wlShift + x.1.e .wr, x.2 3),
   fun x => (addPub (x.2 0) (-p.curveB), x.1.e .wr + x.1.e .wr + x.1.e .wr),
   fun x => (x.1.e .wrShift + x.1.e .wr + x.1.e .wr, (x.2 0 + x.2 0) + (x.2 0 + x.2 0)),
   fun x => (x.2 6, x.1.e .wr - x.1.e .wrShift),
   fun x => (x.1.e .wo + x.1.e .wo, x.1.e .wo + x.1.e .woShift)]

/-- `/repo/co-noir/co-ultrahonk/src/co_decider/relations/elliptic_relation.rs:196-252` -/
def ellipticResult (x : (Point F A × (Nat → A)) × (Nat → A)) : Subrel → A
  | .elliptic0 =>
    let y1y2 := x.1.1.q .ql • x.1.2 2
    let xAdd := x.2 0 - x.1.2 1 - x.1.2 0 + y1y2 + y1y2
    let scaled := x.1.1.q .qElliptic * x.1.1.s
    let double := scaled * x.1.1.q .qm
    let xDouble := x.2 2 - (x.2 1 + x.2 1 + x.2 1)
    (scaled - double) • xAdd + double • xDouble
  | .elliptic1 =>
    let scaled := x.1.1.q .qElliptic * x.1.1.s
    let double := scaled * x.1.1.q .qm
    (scaled - double) • (x.1.2 4 + x.1.2 5) + double • (x.2 3 - x.2 4)
  | _ => 0

/-- `/repo/co-noir/co-ultrahonk/src/co_decider/relations/elliptic_relation.rs:102-257` -/
def coElliptic (d : SumDriver c F A) (p : Params F) (b : List (Point F A)) : c (List (Subrel → A)) := do
  let x ← mulRound d b ellipticFactors1
  let x ← mulRound d x (ellipticFactors2 d.addPub p)
  pure (x.map ellipticResult)

/-! ## Memory -/

/-- `partial_record_check`.  `/repo/co-noir/co-ultrahonk/src/co_decider/relations/memory_relation.rs:240-245` -/
def partialRecord (addPub : A → F → A) (p : Params F) (x : Point F A) : A :=
  addPub (p.eta3 • x.e .wo + p.eta2 • x.e .wr + p.eta1 • x.e .wl) (x.q .qc)

/-- `neg_next_gate_access_type`.  `/repo/co-noir/co-ultrahonk/src/co_decider/relations/memory_relation.rs:328-337` -/
def negNextAccess (p : Params F) (x : Point F A) : A :=
  p.eta3 • x.e .woShift + p.eta2 • x.e .wrShift + p.eta1 • x.e .wlShift - x.e .w4Shift

/-- `/repo/co-noir/co-ultrahonk/src/co_decider/relations/memory_relation.rs:265-359` -/
def memoryFactors1 (addPub : A → F → A) (p : Params F) : List (Point F A → A × A) :=
  [fun x => (x.e .wl - x.e .wlShift, x.e .wl - x.e .wlShift),
   fun x => (addPub (x.e .wl - x.e .wlShift) 1, x.e .w4Shift - x.e .w4),
   fun x => (partialRecord addPub p x - x.e .w4, partialRecord addPub p x - x.e .w4),
   fun x => (addPub (x.e .wl - x.e .wlShift) 1, x.e .woShift - x.e .wo),
   fun x => (negNextAccess p x, negNextAccess p x),
   fun x => (addPub (x.e .wl - x.e .wlShift) 1, x.e .wrShift - x.e .wr)]

/-- `/repo/co-noir/co-ultrahonk/src/co_decider/relations/memory_relation.rs:395-402` -/
def memoryFactors2 (addPub : A → F → A) (p : Params F) : List (Point F A × (Nat → A) → A × A) :=
  [fun x => (x.2 3, addPub (negNextAccess p x.1) 1)]

/-- `/repo/co-noir/co-ultrahonk/src/co_decider/relations/memory_relation.rs:246-262`, `360-455` -/
def memoryResult (addPub : A → F → A) (p : Params F) (x : (Point F A × (Nat → A)) × (Nat → A)) : Subrel → A
  | .memory0 =>
    let scaled := x.1.1.s * x.1.1.q .qMemory
    let recordCheck := partialRecord addPub p x.1.1 - x.1.1.e .w4
    let identity := (x.1.1.q .ql * x.1.1.q .qr) • recordCheck
    let identity := identity + (x.1.1.q .q4 * x.1.1.q .ql) • (x.1.2 5 - x.1.1.e .wo)
    let identity := identity + (x.1.1.q .qm * x.1.1.q .ql) • recordCheck
    scaled • identity + (x.1.1.q .qo * scaled) • (x.1.2 2 + (partialRecord addPub p x.1.1 - x.1.1.e .w4))
  | .memory1 => (x.1.1.q .ql * x.1.1.q .qr * (x.1.1.s * x.1.1.q .qMemory)) • x.1.2 1
  | .memory2 => (x.1.1.q .ql * x.1.1.q .qr * (x.1.1.s * x.1.1.q .qMemory)) • (x.1.2 0 + (x.1.1.e .wl - x.1.1.e .wlShift))
  | .memory3 => (x.1.1.q .qo * (x.1.1.s * x.1.1.q .qMemory)) • x.2 0
  | .memory4 => (x.1.1.q .qo * (x.1.1.s * x.1.1.q .qMemory)) • (x.1.2 0 + (x.1.1.e .wl - x.1.1.e .wlShift))
  | .memory5 => (x.1.1.q .qo * (x.1.1.s * x.1.1.q .qMemory)) • (x.1.2 4 + negNextAccess p x.1.1)
  | _ => 0

/-- `/repo/co-noir/co-ultrahonk/src/co_decider/relations/memory_relation.rs:166-458` -/
def coMemory (d : SumDriver c F A) (p : Params F) (b : List (Point F A)) : c (List (Subrel → A)) := do
  let x ← mulRound d b (memoryFactors1 d.addPub p)
  let x ← mulRound d x (memoryFactors2 d.addPub p)
  pure (x.map (memoryResult d.addPub p))

/-! ## Non-native fields -/

/-- `/repo/co-noir/co-ultrahonk/src/co_decider/relations/non_native_field_relation.rs:136-150` -/
def nnfFactors : List (Point F A → A × A) :=
  [fun x => (x.e .wl, x.e .wrShift), fun x => (x.e .wr, x.e .wlShift), fun x => (x.e .w4, x.e .wl), fun x => (x.e .wo, x.e .wr),
   fun x => (x.e .wlShift, x.e .wrShift)]

/-- `/repo/co-noir/co-ultrahonk/src/co_decider/relations/non_native_field_relation.rs:151-213` -/
def nnfResult (x : Point F A × (Nat → A)) : Subrel → A
  | .nnf0 =>
    let limbSize : F := 2 ^ 68
    let sublimbShift : F := 2 ^ 14
    let product := x.2 0 + x.2 1
    let gate2 := x.1.q .q4 • (limbSize • (x.2 2 + x.2 3 - x.1.e .woShift) - x.1.e .w4Shift + product)
    let product := limbSize • product + x.2 4
    let gate1 := x.1.q .qo • (product - x.1.e .wo - x.1.e .w4)
    let gate3 := x.1.q .qm • (product + x.1.e .w4 - x.1.e .woShift - x.1.e .w4Shift)
    let identity := x.1.q .qr • (gate1 + gate2 + gate3)
    let limb1 := sublimbShift • x.1.e .wrShift + x.1.e .wlShift
    let limb1 := sublimbShift • limb1 + x.1.e .wo
    let limb1 := sublimbShift • limb1 + x.1.e .wr
    let limb1 := sublimbShift • limb1 + x.1.e .wl
    let limb1 := x.1.q .q4 • (limb1 - x.1.e .w4)
    let limb2 := sublimbShift • x.1.e .woShift + x.1.e .wrShift
    let limb2 := sublimbShift • limb2 + x.1.e .wlShift
    let limb2 := sublimbShift • limb2 + x.1.e .w4
    let limb2 := sublimbShift • limb2 + x.1.e .wo
    let limb2 := x.1.q .qm • (limb2 - x.1.e .w4Shift)
    x.1.s • (x.1.q .qNnf • (identity + x.1.q .qo • (limb1 + limb2)))
  | _ => 0

/-- `/repo/co-noir/co-ultrahonk/src/co_decider/relations/non_native_field_relation.rs:109-216` -/
def coNnf (d : SumDriver c F A) (b : List (Point F A)) : c (List (Subrel → A)) := do
  let x ← mulRound d b nnfFactors
  pure (x.map nnfResult)

/-! ## Poseidon2 -/

/-- The inputs of the s-boxes.
`/repo/co-noir/co-ultrahonk/src/co_decider/relations/poseidon2_external_relation.rs:165-174` -/
def externalInput (addPub : A → F → A) (x : Point F A) : Nat → A
  | 0 => addPub (x.e .wl) (x.q .ql)
  | 1 => addPub (x.e .wr) (x.q .qr)
  | 2 => addPub (x.e .wo) (x.q .qo)
  | _ => addPub (x.e .w4) (x.q .q4)

/-- `/repo/co-noir/co-ultrahonk/src/co_decider/relations/poseidon2_external_relation.rs:177` -/
def externalFactors1 (addPub : A → F → A) : List (Point F A → A × A) :=
  [fun x => (externalInput addPub x 0, externalInput addPub x 0), fun x => (externalInput addPub x 1, externalInput addPub x 1),
   fun x => (externalInput addPub x 2, externalInput addPub x 2), fun x => (externalInput addPub x 3, externalInput addPub x 3)]

/-- `/repo/co-noir/co-ultrahonk/src/co_decider/relations/poseidon2_external_relation.rs:178` -/
def externalFactors2 : List (Point F A × (Nat → A) → A × A) :=
  [fun x => (x.2 0, x.2 0), fun x => (x.2 1, x.2 1), fun x => (x.2 2, x.2 2), fun x => (x.2 3, x.2 3)]

/-- `/repo/co-noir/co-ultrahonk/src/co_decider/relations/poseidon2_external_relation.rs:179` -/
def externalFactors3 (addPub : A → F → A) : List ((Point F A × (Nat → A)) × (Nat → A) → A × A) :=
  [fun x => (x.2 0, externalInput addPub x.1.1 0), fun x => (x.2 1, externalInput addPub x.1.1 1),
   fun x => (x.2 2, externalInput addPub x.1.1 2), fun x => (x.2 3, externalInput addPub x.1.1 3)]

/-- `/repo/co-noir/co-ultrahonk/src/co_decider/relations/poseidon2_external_relation.rs:181-228` -/
def externalResult (x : ((Point F A × (Nat → A)) × (Nat → A)) × (Nat → A)) : Subrel → A :=
  let t0 := x.2 0 + x.2 1
  let t1 := x.2 2 + x.2 3
  let t2 := x.2 1 + x.2 1 + t1
  let t3 := x.2 3 + x.2 3 + t0
  let v4 := ((t1 + t1) + (t1 + t1)) + t3
  let v2 := ((t0 + t0) + (t0 + t0)) + t2
  let v1 := t3 + v2
  let v3 := t2 + v4
  let scaled := x.1.1.1.q .qPoseidon2External * x.1.1.1.s
  fun
  | .external0 => scaled • (v1 - x.1.1.1.e .wlShift)
  | .external1 => scaled • (v2 - x.1.1.1.e .wrShift)
  | .external2 => scaled • (v3 - x.1.1.1.e .woShift)
  | .external3 => scaled • (v4 - x.1.1.1.e .w4Shift)
  | _ => 0

/-- `/repo/co-noir/co-ultrahonk/src/co_decider/relations/poseidon2_external_relation.rs:141-229` -/
def coExternal (d : SumDriver c F A) (b : List (Point F A)) : c (List (Subrel → A)) := do
  let x ← mulRound d b (externalFactors1 d.addPub)
  let x ← mulRound d x externalFactors2
  let x ← mulRound d x (externalFactors3 d.addPub)
  pure (x.map externalResult)

/-- `/repo/co-noir/co-ultrahonk/src/co_decider/relations/poseidon2_internal_relation.rs:155-159` -/
def internalFactors1 (addPub : A → F → A) : List (Point F A → A × A) :=
  [fun x => (addPub (x.e .wl) (x.q .ql), addPub (x.e .wl) (x.q .ql))]

/-- `/repo/co-noir/co-ultrahonk/src/co_decider/relations/poseidon2_internal_relation.rs:160` -/
def internalFactors2 : List (Point F A × (Nat → A) → A × A) := [fun x => (x.2 0, x.2 0)]

/-- `/repo/co-noir/co-ultrahonk/src/co_decider/relations/poseidon2_internal_relation.rs:161` -/
def internalFactors3 (addPub : A → F → A) : List ((Point F A × (Nat → A)) × (Nat → A) → A × A) :=
  [fun x => (x.2 0, addPub (x.1.1.e .wl) (x.1.1.q .ql))]

/-- `/repo/co-noir/co-ultrahonk/src/co_decider/relations/poseidon2_internal_relation.rs:163-226` -/
def internalResult (p : Params F) (x : ((Point F A × (Nat → A)) × (Nat → A)) × (Nat → A)) : Subrel → A :=
  let u1 := x.2 0
  let u2 := x.1.1.1.e .wr
  let u3 := x.1.1.1.e .wo
  let u4 := x.1.1.1.e .w4
  let sum := u1 + u2 + u3 + u4
  let scaled := x.1.1.1.q .qPoseidon2Internal * x.1.1.1.s
  fun
  | .internal0 => scaled • (p.diag1 • u1 + sum - x.1.1.1.e .wlShift)
  | .internal1 => scaled • (p.diag2 • u2 + sum - x.1.1.1.e .wrShift)
  | .internal2 => scaled • (p.diag3 • u3 + sum - x.1.1.1.e .woShift)
  | .internal3 => scaled • (p.diag4 • u4 + sum - x.1.1.1.e .w4Shift)
  | _ => 0

/-- `/repo/co-noir/co-ultrahonk/src/co_decider/relations/poseidon2_internal_relation.rs:135-228` -/
def coInternal (d : SumDriver c F A) (p : Params F) (b : List (Point F A)) : c (List (Subrel → A)) := do
  let x ← mulRound d b (internalFactors1 d.addPub)
  let x ← mulRound d x internalFactors2
  let x ← mulRound d x (internalFactors3 d.addPub)
  pure (x.map (internalResult p))

/-- `Relation::accumulate` without the accumulation; of the arithmetic relation the part that is not on half shares. -/
def coRelation (d : SumDriver c F A) (p : Params F) (b : List (Point F A)) : Rel → c (List (Subrel → A))
  | .arith => pure (b.map (arithResult d.addPub))
  | .perm => coPerm d p b
  | .lookup => coLookup d p b
  | .delta => coDelta d b
  | .elliptic => coElliptic d p b
  | .memory => coMemory d p b
  | .nnf => coNnf d b
  | .external => coExternal d b
  | .internal => coInternal d p b

end

end Verif.Honk
