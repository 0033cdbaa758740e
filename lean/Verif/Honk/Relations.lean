import Verif.Honk.Univariate
import Verif.Spec.Honk

/-!
# The relations of UltraHonk

Models `/repo/co-noir/ultrahonk/src/decider/relations`.  The code has each relation twice: on univariates for the prover (`accumulate`)
and on values for the verifier (`verify_accumulate`).  So has the model.  What a relation adds to its accumulators is returned here as
a function of the index of the accumulator; adding it up is in `Verif.Honk.Sumcheck`.
-/

namespace Verif.Honk

variable {F : Type} [Field F]

open Univariate (const sqr double)

/-- The number of evaluations of each accumulator.  `relations/*.rs`: the fields `r0`, `r1`, … of the `…RelationAcc` structures:
`ultra_arithmetic_relation.rs:10-11`, `permutation_relation.rs:10-11`, `logderiv_lookup_relation.rs:11-13`,
`delta_range_constraint_relation.rs:10-13`, `elliptic_relation.rs:9-10`, `memory_relation.rs:10-15`, `non_native_field_relation.rs:11`,
`poseidon2_external_relation.rs:10-13`, `poseidon2_internal_relation.rs:12-15` -/
def Subrel.len : Subrel → Nat
  | .arith0 => 6
  | .arith1 => 5
  | .perm0 => 6
  | .perm1 => 3
  | .lookup0 => 5
  | .lookup1 => 5
  | .lookup2 => 3
  | .delta0 | .delta1 | .delta2 | .delta3 => 6
  | .elliptic0 | .elliptic1 => 6
  | .memory0 | .memory1 | .memory2 | .memory3 | .memory4 | .memory5 => 6
  | .nnf0 => 6
  | .external0 | .external1 | .external2 | .external3 => 7
  | .internal0 | .internal1 | .internal2 | .internal3 => 7

/-- The last argument of `extend_and_batch_univariates`: whether the subrelation is scaled row by row.  It is `false` only for
`logderiv_lookup_relation.rs:37-42`. -/
def Subrel.independent : Subrel → Bool
  | .lookup1 => false
  | _ => true

/-- The relations.  `/repo/co-noir/ultrahonk/src/decider/relations/mod.rs:77-87` -/
inductive Rel
  | arith | perm | lookup | delta | elliptic | memory | nnf | external | internal
  deriving DecidableEq

/-- The relation to which an accumulator belongs. -/
def Subrel.rel : Subrel → Rel
  | .arith0 | .arith1 => .arith
  | .perm0 | .perm1 => .perm
  | .lookup0 | .lookup1 | .lookup2 => .lookup
  | .delta0 | .delta1 | .delta2 | .delta3 => .delta
  | .elliptic0 | .elliptic1 => .elliptic
  | .memory0 | .memory1 | .memory2 | .memory3 | .memory4 | .memory5 => .memory
  | .nnf0 => .nnf
  | .external0 | .external1 | .external2 | .external3 => .external
  | .internal0 | .internal1 | .internal2 | .internal3 => .internal

/-! ## The prover -/

section prover

variable {n : Nat}

/-- `ultra_arithmetic_relation.rs:121-171` -/
def arithAccumulate (e : Col → Univariate F n) (s : F) : Fin 2 → Univariate F n :=
  let negHalf := -(2 : F)⁻¹
  let tmp0 := (e .qArith - const 3) * (e .qm * e .wr * e .wl) * const negHalf
  let tmp0 := tmp0 + ((e .ql * e .wl) + (e .qr * e .wr) + (e .qo * e .wo) + (e .q4 * e .w4) + e .qc)
  let tmp0 := tmp0 + (e .qArith - const 1) * e .w4Shift
  let tmp0 := tmp0 * e .qArith
  let tmp0 := tmp0 * const s
  let tmp1 := e .wl + e .w4 - e .wlShift + e .qm
  let tmp1 := tmp1 * (e .qArith - const 2)
  let tmp1 := tmp1 * (e .qArith - const 1)
  let tmp1 := tmp1 * e .qArith
  let tmp1 := tmp1 * const s
  ![tmp0, tmp1]

/-- `permutation_relation.rs:92-165` -/
def permAccumulate (p : Params F) (e : Col → Univariate F n) (s : F) : Fin 2 → Univariate F n :=
  let w1g := e .wl + const p.gamma
  let w2g := e .wr + const p.gamma
  let w3g := e .wo + const p.gamma
  let w4g := e .w4 + const p.gamma
  let t1 := e .id1 * const p.beta + w1g
  let t1 := t1 * const s
  let t2 := e .id2 * const p.beta + w2g
  let t3 := e .id3 * const p.beta + w3g
  let t4 := e .id4 * const p.beta + w4g
  let numerator := t1 * t2 * t3 * t4
  let t5 := e .sigma1 * const p.beta + w1g
  let t5 := t5 * const s
  let t6 := e .sigma2 * const p.beta + w2g
  let t7 := e .sigma3 * const p.beta + w3g
  let t8 := e .sigma4 * const p.beta + w4g
  let denominator := t5 * t6 * t7 * t8
  let publicInputTerm := e .lagrangeLast * const p.publicInputDelta + e .zPermShift
  ![(e .zPerm + e .lagrangeFirst) * numerator - publicInputTerm * denominator,
    (e .lagrangeLast * e .zPermShift) * const s]

/-- `compute_inverse_exists`.  `logderiv_lookup_relation.rs:76-83` -/
def inverseExists (e : Col → Univariate F n) : Univariate F n :=
  -(e .lookupReadTags * e .qLookup) + e .lookupReadTags + e .qLookup

/-- `compute_read_term`.  `logderiv_lookup_relation.rs:92-126` -/
def proverReadTerm (p : Params F) (e : Col → Univariate F n) : Univariate F n :=
  let betaSqr := p.beta * p.beta
  let betaCube := betaSqr * p.beta
  let entry1 := e .wl + const p.gamma + e .qr * e .wlShift
  let entry2 := e .qm * e .wrShift + e .wr
  let entry3 := e .qc * e .woShift + e .wo
  entry1 + entry2 * const p.beta + entry3 * const betaSqr + e .qo * const betaCube

/-- `compute_write_term`.  `logderiv_lookup_relation.rs:163-183` -/
def proverWriteTerm (p : Params F) (e : Col → Univariate F n) : Univariate F n :=
  let betaSqr := p.beta * p.beta
  let betaCube := betaSqr * p.beta
  e .table1 + const p.gamma + e .table2 * const p.beta + e .table3 * const betaSqr + e .table4 * const betaCube

/-- `logderiv_lookup_relation.rs:266-309` -/
def lookupAccumulate (p : Params F) (e : Col → Univariate F n) (s : F) : Fin 3 → Univariate F n :=
  let readTerm := proverReadTerm p e
  let writeTerm := proverWriteTerm p e
  let writeInverse := readTerm * e .lookupInverses
  let readInverse := writeTerm * e .lookupInverses
  ![(readTerm * writeTerm * e .lookupInverses - inverseExists e) * const s,
    readInverse * e .qLookup - writeInverse * e .lookupReadCounts,
    (e .lookupReadTags * e .lookupReadTags - e .lookupReadTags) * const s]

/-- `delta_range_constraint_relation.rs:112-178` -/
def deltaAccumulate (e : Col → Univariate F n) (s : F) : Fin 4 → Univariate F n :=
  let minusOne := -(1 : F)
  let minusTwo := -(2 : F)
  let delta1 := e .wr - e .wl
  let delta2 := e .wo - e .wr
  let delta3 := e .w4 - e .wo
  let delta4 := e .wlShift - e .w4
  let term := fun (d : Univariate F n) =>
    (sqr (d + const minusOne) + const minusOne) * (sqr (d + const minusTwo) + const minusOne) * e .qDeltaRange * const s
  ![term delta1, term delta2, term delta3, term delta4]

/-- `elliptic_relation.rs:82-161` -/
def ellipticAccumulate (p : Params F) (e : Col → Univariate F n) (s : F) : Fin 2 → Univariate F n :=
  let x1 := e .wr
  let y1 := e .wo
  let x2 := e .wlShift
  let y2 := e .w4Shift
  let y3 := e .woShift
  let x3 := e .wrShift
  let qSign := e .ql
  let xDiff := x2 - x1
  let y2Sqr := sqr y2
  let y1Sqr := sqr y1
  let y1y2 := y1 * y2 * qSign
  let xAddIdentity := (x3 + x2 + x1) * sqr xDiff - y2Sqr - y1Sqr + y1y2 + y1y2
  let qByScaling := e .qElliptic * const s
  let qDoubleScaling := qByScaling * e .qm
  let qNotDoubleScaling := qByScaling - qDoubleScaling
  let tmp1 := xAddIdentity * qNotDoubleScaling
  let y1PlusY3 := y1 + y3
  let yDiff := y2 * qSign - y1
  let yAddIdentity := y1PlusY3 * xDiff + (x3 - x1) * yDiff
  let tmp2 := yAddIdentity * qNotDoubleScaling
  let x1Mul3 := x1 + x1 + x1
  let xPow4Mul3 := (y1Sqr - const p.curveB) * x1Mul3
  let y1SqrMul4 := double (double y1Sqr)
  let x1Pow4Mul9 := double xPow4Mul3 + xPow4Mul3
  let xDoubleIdentity := (x3 + x1 + x1) * y1SqrMul4 - x1Pow4Mul9
  let tmp1 := tmp1 + xDoubleIdentity * qDoubleScaling
  let x1SqrMul3 := x1Mul3 * x1
  let yDoubleIdentity := x1SqrMul3 * (x1 - x3) - (y1 + y1) * y1PlusY3
  let tmp2 := tmp2 + yDoubleIdentity * qDoubleScaling
  ![tmp1, tmp2]

/-- `memory_relation.rs:144-343` -/
def memoryAccumulate (p : Params F) (e : Col → Univariate F n) (s : F) : Fin 6 → Univariate F n :=
  let recordCheck := e .wo * const p.eta3
  let recordCheck := recordCheck + e .wr * const p.eta2
  let recordCheck := recordCheck + e .wl * const p.eta1
  let recordCheck := recordCheck + e .qc
  let partialRecordCheck := recordCheck
  let recordCheck := recordCheck - e .w4
  let negIndexDelta := e .wl - e .wlShift
  let indexDeltaIsZero := negIndexDelta + const 1
  let recordDelta := e .w4Shift - e .w4
  let indexIsMonotonicallyIncreasing := sqr negIndexDelta + negIndexDelta
  let adjacentValuesMatch := indexDeltaIsZero * recordDelta
  let qMemoryByScaling := e .qMemory * const s
  let qOneByTwo := e .ql * e .qr
  let qOneByTwoByMemoryByScaling := qOneByTwo * qMemoryByScaling
  let r1 := adjacentValuesMatch * qOneByTwoByMemoryByScaling
  let r2 := indexIsMonotonicallyIncreasing * qOneByTwoByMemoryByScaling
  let romConsistencyCheckIdentity := recordCheck * qOneByTwo
  let negAccessType := partialRecordCheck - e .w4
  let accessCheck := sqr negAccessType + negAccessType
  let negNextGateAccessType := e .woShift * const p.eta3
  let negNextGateAccessType := negNextGateAccessType + e .wrShift * const p.eta2
  let negNextGateAccessType := negNextGateAccessType + e .wlShift * const p.eta1
  let negNextGateAccessType := negNextGateAccessType - e .w4Shift
  let valueDelta := e .woShift - e .wo
  let adjacentValuesMatchAndRead := (indexDeltaIsZero * valueDelta) * (negNextGateAccessType + const 1)
  let nextGateAccessTypeIsBoolean := sqr negNextGateAccessType + negNextGateAccessType
  let q3ByMemoryAndScaling := e .qo * qMemoryByScaling
  let r3 := adjacentValuesMatchAndRead * q3ByMemoryAndScaling
  let r4 := indexIsMonotonicallyIncreasing * q3ByMemoryAndScaling
  let r5 := nextGateAccessTypeIsBoolean * q3ByMemoryAndScaling
  let ramConsistencyCheckIdentity := accessCheck * q3ByMemoryAndScaling
  let timestampDelta := e .wrShift - e .wr
  let ramTimestampCheckIdentity := indexDeltaIsZero * timestampDelta - e .wo
  let memoryIdentity := romConsistencyCheckIdentity
  let memoryIdentity := memoryIdentity + ramTimestampCheckIdentity * (e .q4 * e .ql)
  let memoryIdentity := memoryIdentity + recordCheck * (e .qm * e .ql)
  let memoryIdentity := memoryIdentity * qMemoryByScaling
  let memoryIdentity := memoryIdentity + ramConsistencyCheckIdentity
  ![memoryIdentity, r1, r2, r3, r4, r5]

/-- `non_native_field_relation.rs:84-174` -/
def nnfAccumulate (e : Col → Univariate F n) (s : F) : Univariate F n :=
  let limbSize : F := 2 ^ 68
  let sublimbShift : F := 2 ^ 14
  let limbSubproduct := e .wl * e .wrShift + e .wlShift * e .wr
  let gate2 := e .wl * e .w4 + e .wr * e .wo - e .woShift
  let gate2 := gate2 * const limbSize
  let gate2 := gate2 - e .w4Shift
  let gate2 := gate2 + limbSubproduct
  let gate2 := gate2 * e .q4
  let limbSubproduct := limbSubproduct * const limbSize
  let limbSubproduct := limbSubproduct + e .wlShift * e .wrShift
  let gate1 := limbSubproduct
  let gate1 := gate1 - (e .wo + e .w4)
  let gate1 := gate1 * e .qo
  let gate3 := limbSubproduct
  let gate3 := gate3 + e .w4
  let gate3 := gate3 - (e .woShift + e .w4Shift)
  let gate3 := gate3 * e .qm
  let identity := gate1 + gate2 + gate3
  let identity := identity * e .qr
  let acc1 := e .wrShift * const sublimbShift
  let acc1 := acc1 + e .wlShift
  let acc1 := acc1 * const sublimbShift
  let acc1 := acc1 + e .wo
  let acc1 := acc1 * const sublimbShift
  let acc1 := acc1 + e .wr
  let acc1 := acc1 * const sublimbShift
  let acc1 := acc1 + e .wl
  let acc1 := acc1 - e .w4
  let acc1 := acc1 * e .q4
  let acc2 := e .woShift * const sublimbShift
  let acc2 := acc2 + e .wrShift
  let acc2 := acc2 * const sublimbShift
  let acc2 := acc2 + e .wlShift
  let acc2 := acc2 * const sublimbShift
  let acc2 := acc2 + e .w4
  let acc2 := acc2 * const sublimbShift
  let acc2 := acc2 + e .wo
  let acc2 := acc2 - e .w4Shift
  let acc2 := acc2 * e .qm
  let limbAccumulatorIdentity := acc1 + acc2
  let limbAccumulatorIdentity := limbAccumulatorIdentity * e .qo
  let nnfIdentity := identity + limbAccumulatorIdentity
  let nnfIdentity := nnfIdentity * e .qNnf
  nnfIdentity * const s

/-- `poseidon2_external_relation.rs:120-205` -/
def externalAccumulate (e : Col → Univariate F n) (s : F) : Fin 4 → Univariate F n :=
  let s1 := e .wl + e .ql
  let s2 := e .wr + e .qr
  let s3 := e .wo + e .qo
  let s4 := e .w4 + e .q4
  let u1 := sqr (sqr s1) * s1
  let u2 := sqr (sqr s2) * s2
  let u3 := sqr (sqr s3) * s3
  let u4 := sqr (sqr s4) * s4
  let t0 := u1 + u2
  let t1 := u3 + u4
  let t2 := double u2
  let t2 := t2 + t1
  let t3 := double u4
  let t3 := t3 + t0
  let v4 := double (double t1)
  let v4 := v4 + t3
  let v2 := double (double t0)
  let v2 := v2 + t2
  let v1 := t3 + v2
  let v3 := t2 + v4
  let qPosByScaling := e .qPoseidon2External * const s
  ![(v1 - e .wlShift) * qPosByScaling, (v2 - e .wrShift) * qPosByScaling, (v3 - e .woShift) * qPosByScaling,
    (v4 - e .w4Shift) * qPosByScaling]

/-- `poseidon2_internal_relation.rs:117-199` -/
def internalAccumulate (p : Params F) (e : Col → Univariate F n) (s : F) : Fin 4 → Univariate F n :=
  let s1 := e .wl + e .ql
  let u1 := sqr (sqr s1) * s1
  let u2 := e .wr
  let u3 := e .wo
  let u4 := e .w4
  let sum := u1 + u2 + u3 + u4
  let qPosByScaling := e .qPoseidon2Internal * const s
  let v1 := u1 * const p.diag1 + sum
  let v2 := u2 * const p.diag2 + sum
  let v3 := u3 * const p.diag3 + sum
  let v4 := u4 * const p.diag4 + sum
  ![(v1 - e .wlShift) * qPosByScaling, (v2 - e .wrShift) * qPosByScaling, (v3 - e .woShift) * qPosByScaling,
    (v4 - e .w4Shift) * qPosByScaling]

/-- What the `accumulate` functions add to the accumulators. -/
def contribution (p : Params F) (e : Col → Univariate F n) (s : F) : Subrel → Univariate F n
  | .arith0 => arithAccumulate e s 0
  | .arith1 => arithAccumulate e s 1
  | .perm0 => permAccumulate p e s 0
  | .perm1 => permAccumulate p e s 1
  | .lookup0 => lookupAccumulate p e s 0
  | .lookup1 => lookupAccumulate p e s 1
  | .lookup2 => lookupAccumulate p e s 2
  | .delta0 => deltaAccumulate e s 0
  | .delta1 => deltaAccumulate e s 1
  | .delta2 => deltaAccumulate e s 2
  | .delta3 => deltaAccumulate e s 3
  | .elliptic0 => ellipticAccumulate p e s 0
  | .elliptic1 => ellipticAccumulate p e s 1
  | .memory0 => memoryAccumulate p e s 0
  | .memory1 => memoryAccumulate p e s 1
  | .memory2 => memoryAccumulate p e s 2
  | .memory3 => memoryAccumulate p e s 3
  | .memory4 => memoryAccumulate p e s 4
  | .memory5 => memoryAccumulate p e s 5
  | .nnf0 => nnfAccumulate e s
  | .external0 => externalAccumulate e s 0
  | .external1 => externalAccumulate e s 1
  | .external2 => externalAccumulate e s 2
  | .external3 => externalAccumulate e s 3
  | .internal0 => internalAccumulate p e s 0
  | .internal1 => internalAccumulate p e s 1
  | .internal2 => internalAccumulate p e s 2
  | .internal3 => internalAccumulate p e s 3

/-- `skip`.  All relations are skippable.  `ultra_arithmetic_relation.rs:69-72`, `permutation_relation.rs:70-75`,
`logderiv_lookup_relation.rs:214-217`, `delta_range_constraint_relation.rs:92-95`, `elliptic_relation.rs:63-69`,
`memory_relation.rs:114-117`, `non_native_field_relation.rs:59-62`, `poseidon2_external_relation.rs:92-95`,
`poseidon2_internal_relation.rs:94-97` -/
def Rel.skip [DecidableEq F] (e : Col → Univariate F n) : Rel → Bool
  | .arith => (e .qArith).isZero
  | .perm => (e .zPerm - e .zPermShift).isZero
  | .lookup => (e .qLookup).isZero && (e .lookupReadCounts).isZero
  | .delta => (e .qDeltaRange).isZero
  | .elliptic => (e .qElliptic).isZero
  | .memory => (e .qMemory).isZero
  | .nnf => (e .qNnf).isZero
  | .external => (e .qPoseidon2External).isZero
  | .internal => (e .qPoseidon2Internal).isZero

end prover

/-! ## The verifier -/

section verifier

/-- `ark_ff::Field::square`. -/
def square (x : F) : F := x * x

/-- `ark_ff::AdditiveGroup::double`. -/
def twice (x : F) : F := x + x

/-- `ultra_arithmetic_relation.rs:173-223` -/
def arithVerify (e : Col → F) (s : F) : Fin 2 → F :=
  let negHalf := -(2 : F)⁻¹
  let tmp0 := (e .qArith - 3) * (e .qm * e .wr * e .wl) * negHalf
  let tmp0 := tmp0 + ((e .ql * e .wl) + (e .qr * e .wr) + (e .qo * e .wo) + (e .q4 * e .w4) + e .qc)
  let tmp0 := tmp0 + (e .qArith - 1) * e .w4Shift
  let tmp0 := tmp0 * e .qArith
  let tmp0 := tmp0 * s
  let tmp1 := e .wl + e .w4 - e .wlShift + e .qm
  let tmp1 := tmp1 * (e .qArith - 2)
  let tmp1 := tmp1 * (e .qArith - 1)
  let tmp1 := tmp1 * e .qArith
  let tmp1 := tmp1 * s
  ![tmp0, tmp1]

/-- `permutation_relation.rs:167-237` -/
def permVerify (p : Params F) (e : Col → F) (s : F) : Fin 2 → F :=
  let w1g := e .wl + p.gamma
  let w2g := e .wr + p.gamma
  let w3g := e .wo + p.gamma
  let w4g := e .w4 + p.gamma
  let t1 := e .id1 * p.beta + w1g
  let t1 := t1 * s
  let t2 := e .id2 * p.beta + w2g
  let t3 := e .id3 * p.beta + w3g
  let t4 := e .id4 * p.beta + w4g
  let numerator := t1 * t2 * t3 * t4
  let t5 := e .sigma1 * p.beta + w1g
  let t5 := t5 * s
  let t6 := e .sigma2 * p.beta + w2g
  let t7 := e .sigma3 * p.beta + w3g
  let t8 := e .sigma4 * p.beta + w4g
  let denominator := t5 * t6 * t7 * t8
  let publicInputTerm := e .lagrangeLast * p.publicInputDelta + e .zPermShift
  ![(e .zPerm + e .lagrangeFirst) * numerator - publicInputTerm * denominator,
    (e .lagrangeLast * e .zPermShift) * s]

/-- `compute_inverse_exists_verifier`.  `logderiv_lookup_relation.rs:85-90` -/
def inverseExistsVerifier (e : Col → F) : F :=
  -(e .lookupReadTags * e .qLookup) + e .lookupReadTags + e .qLookup

/-- `compute_read_term_verifier`.  `logderiv_lookup_relation.rs:128-160` -/
def readTermVerifier (p : Params F) (e : Col → F) : F :=
  let betaSqr := p.beta * p.beta
  let betaCube := betaSqr * p.beta
  let entry1 := e .wl + p.gamma + e .qr * e .wlShift
  let entry2 := e .qm * e .wrShift + e .wr
  let entry3 := e .qc * e .woShift + e .wo
  entry1 + entry2 * p.beta + entry3 * betaSqr + e .qo * betaCube

/-- `compute_write_term_verifier`.  `logderiv_lookup_relation.rs:185-204` -/
def writeTermVerifier (p : Params F) (e : Col → F) : F :=
  let betaSqr := p.beta * p.beta
  let betaCube := betaSqr * p.beta
  e .table1 + p.gamma + e .table2 * p.beta + e .table3 * betaSqr + e .table4 * betaCube

/-- `logderiv_lookup_relation.rs:311-348` -/
def lookupVerify (p : Params F) (e : Col → F) (s : F) : Fin 3 → F :=
  let readTerm := readTermVerifier p e
  let writeTerm := writeTermVerifier p e
  let writeInverse := readTerm * e .lookupInverses
  let readInverse := writeTerm * e .lookupInverses
  ![(readTerm * writeTerm * e .lookupInverses - inverseExistsVerifier e) * s,
    readInverse * e .qLookup - writeInverse * e .lookupReadCounts,
    (e .lookupReadTags * e .lookupReadTags - e .lookupReadTags) * s]

/-- `delta_range_constraint_relation.rs:180-236` -/
def deltaVerify (e : Col → F) (s : F) : Fin 4 → F :=
  let minusOne := -(1 : F)
  let minusTwo := -(2 : F)
  let delta1 := e .wr - e .wl
  let delta2 := e .wo - e .wr
  let delta3 := e .w4 - e .wo
  let delta4 := e .wlShift - e .w4
  let term := fun (d : F) =>
    (square (d + minusOne) + minusOne) * (square (d + minusTwo) + minusOne) * e .qDeltaRange * s
  ![term delta1, term delta2, term delta3, term delta4]

/-- `elliptic_relation.rs:163-240` -/
def ellipticVerify (p : Params F) (e : Col → F) (s : F) : Fin 2 → F :=
  let x1 := e .wr
  let y1 := e .wo
  let x2 := e .wlShift
  let y2 := e .w4Shift
  let y3 := e .woShift
  let x3 := e .wrShift
  let qSign := e .ql
  let xDiff := x2 - x1
  let y2Sqr := square y2
  let y1Sqr := square y1
  let y1y2 := y1 * y2 * qSign
  let xAddIdentity := (x3 + x2 + x1) * square xDiff - y2Sqr - y1Sqr + y1y2 + y1y2
  let qByScaling := e .qElliptic * s
  let qDoubleScaling := qByScaling * e .qm
  let qNotDoubleScaling := qByScaling - qDoubleScaling
  let tmp1 := xAddIdentity * qNotDoubleScaling
  let y1PlusY3 := y1 + y3
  let yDiff := y2 * qSign - y1
  let yAddIdentity := y1PlusY3 * xDiff + (x3 - x1) * yDiff
  let tmp2 := yAddIdentity * qNotDoubleScaling
  let x1Mul3 := x1 + x1 + x1
  let xPow4Mul3 := (y1Sqr - p.curveB) * x1Mul3
  let y1SqrMul4 := twice (twice y1Sqr)
  let x1Pow4Mul9 := twice xPow4Mul3 + xPow4Mul3
  let xDoubleIdentity := (x3 + x1 + x1) * y1SqrMul4 - x1Pow4Mul9
  let tmp1 := tmp1 + xDoubleIdentity * qDoubleScaling
  let x1SqrMul3 := x1Mul3 * x1
  let yDoubleIdentity := x1SqrMul3 * (x1 - x3) - (y1 + y1) * y1PlusY3
  let tmp2 := tmp2 + yDoubleIdentity * qDoubleScaling
  ![tmp1, tmp2]

/-- `memory_relation.rs:345-561` -/
def memoryVerify (p : Params F) (e : Col → F) (s : F) : Fin 6 → F :=
  let recordCheck := e .wo * p.eta3
  let recordCheck := recordCheck + e .wr * p.eta2
  let recordCheck := recordCheck + e .wl * p.eta1
  let recordCheck := recordCheck + e .qc
  let partialRecordCheck := recordCheck
  let recordCheck := recordCheck - e .w4
  let negIndexDelta := e .wl - e .wlShift
  let indexDeltaIsZero := negIndexDelta + 1
  let recordDelta := e .w4Shift - e .w4
  let indexIsMonotonicallyIncreasing := square negIndexDelta + negIndexDelta
  let adjacentValuesMatch := indexDeltaIsZero * recordDelta
  let qMemoryByScaling := e .qMemory * s
  let qOneByTwo := e .ql * e .qr
  let qOneByTwoByMemoryByScaling := qOneByTwo * qMemoryByScaling
  let r1 := adjacentValuesMatch * qOneByTwoByMemoryByScaling
  let r2 := indexIsMonotonicallyIncreasing * qOneByTwoByMemoryByScaling
  let romConsistencyCheckIdentity := recordCheck * qOneByTwo
  let negAccessType := partialRecordCheck - e .w4
  let accessCheck := square negAccessType + negAccessType
  let negNextGateAccessType := e .woShift * p.eta3
  let negNextGateAccessType := negNextGateAccessType + e .wrShift * p.eta2
  let negNextGateAccessType := negNextGateAccessType + e .wlShift * p.eta1
  let negNextGateAccessType := negNextGateAccessType - e .w4Shift
  let valueDelta := e .woShift - e .wo
  let adjacentValuesMatchAndRead := (indexDeltaIsZero * valueDelta) * (negNextGateAccessType + 1)
  let nextGateAccessTypeIsBoolean := square negNextGateAccessType + negNextGateAccessType
  let q3ByMemoryAndScaling := e .qo * qMemoryByScaling
  let r3 := adjacentValuesMatchAndRead * q3ByMemoryAndScaling
  let r4 := indexIsMonotonicallyIncreasing * q3ByMemoryAndScaling
  let r5 := nextGateAccessTypeIsBoolean * q3ByMemoryAndScaling
  let ramConsistencyCheckIdentity := accessCheck * q3ByMemoryAndScaling
  let timestampDelta := e .wrShift - e .wr
  let ramTimestampCheckIdentity := indexDeltaIsZero * timestampDelta - e .wo
  let memoryIdentity := romConsistencyCheckIdentity
  let memoryIdentity := memoryIdentity + ramTimestampCheckIdentity * (e .q4 * e .ql)
  let memoryIdentity := memoryIdentity + recordCheck * (e .qm * e .ql)
  let memoryIdentity := memoryIdentity * qMemoryByScaling
  let memoryIdentity := memoryIdentity + ramConsistencyCheckIdentity
  ![memoryIdentity, r1, r2, r3, r4, r5]

/-- `non_native_field_relation.rs:176-260` -/
def nnfVerify (e : Col → F) (s : F) : F :=
  let limbSize : F := 2 ^ 68
  let sublimbShift : F := 2 ^ 14
  let limbSubproduct := e .wl * e .wrShift + e .wlShift * e .wr
  let gate2 := e .wl * e .w4 + e .wr * e .wo - e .woShift
  let gate2 := gate2 * limbSize
  let gate2 := gate2 - e .w4Shift
  let gate2 := gate2 + limbSubproduct
  let gate2 := gate2 * e .q4
  let limbSubproduct := limbSubproduct * limbSize
  let limbSubproduct := limbSubproduct + e .wlShift * e .wrShift
  let gate1 := limbSubproduct
  let gate1 := gate1 - (e .wo + e .w4)
  let gate1 := gate1 * e .qo
  let gate3 := limbSubproduct
  let gate3 := gate3 + e .w4
  let gate3 := gate3 - (e .woShift + e .w4Shift)
  let gate3 := gate3 * e .qm
  let identity := gate1 + gate2 + gate3
  let identity := identity * e .qr
  let acc1 := e .wrShift * sublimbShift
  let acc1 := acc1 + e .wlShift
  let acc1 := acc1 * sublimbShift
  let acc1 := acc1 + e .wo
  let acc1 := acc1 * sublimbShift
  let acc1 := acc1 + e .wr
  let acc1 := acc1 * sublimbShift
  let acc1 := acc1 + e .wl
  let acc1 := acc1 - e .w4
  let acc1 := acc1 * e .q4
  let acc2 := e .woShift * sublimbShift
  let acc2 := acc2 + e .wrShift
  let acc2 := acc2 * sublimbShift
  let acc2 := acc2 + e .wlShift
  let acc2 := acc2 * sublimbShift
  let acc2 := acc2 + e .w4
  let acc2 := acc2 * sublimbShift
  let acc2 := acc2 + e .wo
  let acc2 := acc2 - e .w4Shift
  let acc2 := acc2 * e .qm
  let limbAccumulatorIdentity := acc1 + acc2
  let limbAccumulatorIdentity := limbAccumulatorIdentity * e .qo
  let nnfIdentity := identity + limbAccumulatorIdentity
  let nnfIdentity := nnfIdentity * e .qNnf
  nnfIdentity * s

/-- `poseidon2_external_relation.rs:207-283` -/
def externalVerify (e : Col → F) (s : F) : Fin 4 → F :=
  let s1 := e .wl + e .ql
  let s2 := e .wr + e .qr
  let s3 := e .wo + e .qo
  let s4 := e .w4 + e .q4
  let u1 := square (square s1) * s1
  let u2 := square (square s2) * s2
  let u3 := square (square s3) * s3
  let u4 := square (square s4) * s4
  let t0 := u1 + u2
  let t1 := u3 + u4
  let t2 := twice u2
  let t2 := t2 + t1
  let t3 := twice u4
  let t3 := t3 + t0
  let v4 := twice (twice t1)
  let v4 := v4 + t3
  let v2 := twice (twice t0)
  let v2 := v2 + t2
  let v1 := t3 + v2
  let v3 := t2 + v4
  let qPosByScaling := e .qPoseidon2External * s
  ![(v1 - e .wlShift) * qPosByScaling, (v2 - e .wrShift) * qPosByScaling, (v3 - e .woShift) * qPosByScaling,
    (v4 - e .w4Shift) * qPosByScaling]

/-- `poseidon2_internal_relation.rs:201-280` -/
def internalVerify (p : Params F) (e : Col → F) (s : F) : Fin 4 → F :=
  let s1 := e .wl + e .ql
  let u1 := square (square s1) * s1
  let u2 := e .wr
  let u3 := e .wo
  let u4 := e .w4
  let sum := u1 + u2 + u3 + u4
  let qPosByScaling := e .qPoseidon2Internal * s
  let v1 := u1 * p.diag1 + sum
  let v2 := u2 * p.diag2 + sum
  let v3 := u3 * p.diag3 + sum
  let v4 := u4 * p.diag4 + sum
  ![(v1 - e .wlShift) * qPosByScaling, (v2 - e .wrShift) * qPosByScaling, (v3 - e .woShift) * qPosByScaling,
    (v4 - e .w4Shift) * qPosByScaling]

/-- What the `verify_accumulate` functions add to the accumulators. -/
def evaluation (p : Params F) (e : Col → F) (s : F) : Subrel → F
  | .arith0 => arithVerify e s 0
  | .arith1 => arithVerify e s 1
  | .perm0 => permVerify p e s 0
  | .perm1 => permVerify p e s 1
  | .lookup0 => lookupVerify p e s 0
  | .lookup1 => lookupVerify p e s 1
  | .lookup2 => lookupVerify p e s 2
  | .delta0 => deltaVerify e s 0
  | .delta1 => deltaVerify e s 1
  | .delta2 => deltaVerify e s 2
  | .delta3 => deltaVerify e s 3
  | .elliptic0 => ellipticVerify p e s 0
  | .elliptic1 => ellipticVerify p e s 1
  | .memory0 => memoryVerify p e s 0
  | .memory1 => memoryVerify p e s 1
  | .memory2 => memoryVerify p e s 2
  | .memory3 => memoryVerify p e s 3
  | .memory4 => memoryVerify p e s 4
  | .memory5 => memoryVerify p e s 5
  | .nnf0 => nnfVerify e s
  | .external0 => externalVerify e s 0
  | .external1 => externalVerify e s 1
  | .external2 => externalVerify e s 2
  | .external3 => externalVerify e s 3
  | .internal0 => internalVerify p e s 0
  | .internal1 => internalVerify p e s 1
  | .internal2 => internalVerify p e s 2
  | .internal3 => internalVerify p e s 3

end verifier

end Verif.Honk
