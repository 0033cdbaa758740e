import Verif.CoNoir.Acvm
import Verif.CircomVm.Rep3
import Verif.Ring.Lut
import Verif.Shamir.Arith

/-!
# The drivers of the solver for Noir programs

The methods of `/repo/co-noir/co-acvm/src/mpc/{plain,rep3,shamir}.rs` that `CoNoir/Acvm.lean` uses.  `Rep3AcvmType` and
`ShamirAcvmType` are `VmVal`.
-/

namespace Verif.Acvm

open MPC (bail panicWith)
open CircomVm (VmVal)

/-! ### The driver for plain values -/

section Plain

variable {p : Nat} [Fact p.Prime]

/-- `-c / q_l`, which panics for `q_l = 0`. `/repo/co-noir/co-acvm/src/mpc/plain.rs:193-199` -/
def plainSolveEquation (q c : ZMod p) : Except Err (ZMod p) :=
  if q = 0 then .error (.panic "called `Option::unwrap()` on a `None` value") else .ok (-c / q)

/-- `/repo/co-noir/co-acvm/src/mpc/plain.rs:411-423` -/
def plainAnd (l r : ZMod p) (bits : Nat) : ZMod p := (((l.val &&& r.val) &&& (1 <<< bits - 1) : Nat) : ZMod p)

/-- `/repo/co-noir/co-acvm/src/mpc/plain.rs:425-437` -/
def plainXor (l r : ZMod p) (bits : Nat) : ZMod p := (((l.val ^^^ r.val) &&& (1 <<< bits - 1) : Nat) : ZMod p)

/-- `/repo/co-noir/co-acvm/src/mpc/plain.rs:146-437` -/
def plain (p : Nat) [Fact p.Prime] : Driver (Except Err) (ZMod p) (List (ZMod p)) (ZMod p) (ZMod p) where
  zero := 0
  ofPub c := c
  addAssignWithPublic c t := .ok (t + c)
  addAssign t x := .ok (t + x)
  mulWithPublic c x := .ok (x * c)
  solveMulTerm c l r := .ok (c * l * r)
  solveLinearTerm q w t := .ok (t + q * w)
  solveEquation := plainSolveEquation
  initLut vs := .ok vs
  readLut := Rep3.Lut.plainGet
  writeLut := Rep3.Lut.plainWrite
  bitwiseAnd l r bits := .ok (plainAnd l r bits)
  bitwiseXor l r bits := .ok (plainXor l r bits)
  isShared _ := false
  getShared _ := none
  getPublic x := some x
  openMany a := .ok a
  fail e := .error e

end Plain

/-! ### Values that are public or shared -/

section Values

variable {F A : Type}

/-- `get_shared`. `/repo/co-noir/co-acvm/src/mpc/rep3.rs:851-856`, `/repo/co-noir/co-acvm/src/mpc/shamir.rs:512-517` -/
def valShared : VmVal F A → Option A
  | .pub _ => none
  | .arith a => some a

/-- `get_public`. `/repo/co-noir/co-acvm/src/mpc/rep3.rs:857-862`, `/repo/co-noir/co-acvm/src/mpc/shamir.rs:519-524` -/
def valPublic : VmVal F A → Option F
  | .pub x => some x
  | .arith _ => none

end Values

/-! ### The Rep3 driver -/

section Rep3

open Rep3 CircomVm

variable {R M J : Type} {p : Nat}

/-- `/repo/co-noir/co-acvm/src/mpc/rep3.rs:450-458` -/
def rep3AddPublic (id : PartyID) (c : ZMod p) : Rep3Val p → Rep3Val p
  | .pub x => .pub (c + x)
  | .arith x => .arith (Rep3.addPublic x c id)

/-- `/repo/co-noir/co-acvm/src/mpc/rep3.rs:590-604` -/
def rep3AddAssign (id : PartyID) : Rep3Val p → Rep3Val p → Rep3Val p
  | .pub x, .pub y => .pub (x + y)
  | .pub x, .arith y => .arith (Rep3.addPublic y x id)
  | .arith x, .pub y => .arith (Rep3.addPublic x y id)
  | .arith x, .arith y => .arith (Rep3.add x y)

/-- `/repo/co-noir/co-acvm/src/mpc/rep3.rs:515-522` -/
def rep3MulPublic (c : ZMod p) : Rep3Val p → Rep3Val p
  | .pub x => .pub (c * x)
  | .arith x => .arith (Rep3.mulPublic x c)

/-- `/repo/co-noir/co-acvm/src/mpc/rep3.rs:570-588` -/
def rep3LinearTerm (id : PartyID) (q : ZMod p) : Rep3Val p → Rep3Val p → Rep3Val p
  | .pub w, .pub t => .pub (q * w + t)
  | .pub w, .arith t => .arith (Rep3.addPublic t (q * w) id)
  | .arith w, .pub t => .arith (Rep3.addPublic (Rep3.mulPublic w q) t id)
  | .arith w, .arith t => .arith (Rep3.add (Rep3.mulPublic w q) t)

/-- A computation of a party that uses its number only. -/
def withId {α : Type} (f : PartyID → α) : Rep3M R M α := do
  let id ← stateId
  pure (f id)

/-- `init_lut_by_acvm_type`. `/repo/co-noir/co-acvm/src/mpc/rep3.rs:655-677` -/
def rep3InitLut (id : PartyID) (values : List (Rep3Val p)) : Lut.Table (ZMod p) :=
  if values.any VmVal.isArith then .shared (values.map (toShare id))
  else .pub (values.filterMap valPublic)

variable [Sample R (ZMod p)] [Codec M (List (ZMod p))]

/-- `/repo/co-noir/co-acvm/src/mpc/rep3.rs:606-627` -/
def rep3MulTerm (c : ZMod p) : Rep3Val p → Rep3Val p → Rep3M R M (Rep3Val p)
  | .pub l, .pub r => pure (.pub (l * r * c))
  | .pub x, .arith y => pure (.arith (Rep3.mulPublic (Rep3.mulPublic y x) c))
  | .arith y, .pub x => pure (.arith (Rep3.mulPublic (Rep3.mulPublic y x) c))
  | .arith l, .arith r => do
    let x ← Rep3.mul l r
    pure (.arith (Rep3.mulPublic x c))

/-- An operation without communication that can fail. -/
def arithOr {n S : Type} {A : Type} : Except Err A → MPC n S M Err (VmVal (ZMod p) A)
  | .ok x => pure (.arith x)
  | .error e => MPC.throw e

/-- The same for public values. -/
def pubOr {n S : Type} {A : Type} : Except Err (ZMod p) → MPC n S M Err (VmVal (ZMod p) A)
  | .ok x => pure (.pub x)
  | .error e => MPC.throw e

/-- `/repo/co-noir/co-acvm/src/mpc/rep3.rs:629-653` -/
def rep3Equation [Fact p.Prime] : Rep3Val p → Rep3Val p → Rep3M R M (Rep3Val p)
  | .pub q, .pub c => pubOr (plainSolveEquation q c)
  | .pub q, .arith c => arithOr (Rep3.divSharedByPublic (Rep3.neg c) q)
  | .arith q, .pub c => do
    let x ← Rep3.divPublicByShared (-c) q
    pure (.arith x)
  | .arith q, .arith c => do
    let x ← Rep3.div (Rep3.neg c) q
    pure (.arith x)

/-- `usize::try_from(index)`, then `vec[index]`. -/
def indexVec {α β : Type} (f : α → β) (i : ZMod p) (vec : List α) : Rep3M R M β :=
  match Lut.fieldToUsize i with
  | none => bail "Index can not be translated to usize"
  | some i =>
    match vec[i]? with
    | none => panicWith "index out of bounds"
    | some v => pure (f v)

/-- `usize::try_from(index)`, then `vec[index] = value`. -/
def setVec {α β : Type} (f : List α → β) (i : ZMod p) (value : α) (vec : List α) : Rep3M R M β :=
  match Lut.fieldToUsize i with
  | none => bail "Index can not be translated to usize"
  | some i => if i < vec.length then pure (f (vec.set i value)) else panicWith "index out of bounds"

variable [∀ w, Sample R (BitVec w)] [∀ w, UintCodec M w] [Yao.YaoRng R] [Yao.YaoNet M] (w : Nat)

section Public

variable [∀ t, Codec J (Share (BitVec t) × List (Share (BitVec 1)))]

/-- The part of `get_from_lut` on a public table before `join`. -/
def publicLutIndex (index : Share (ZMod p)) (n : Nat) : Rep3M R M (Share (BitVec (Lut.lutWidth (Nat.clog 2 n)))) := do
  let share ← Lut.castIndex w n index
  Lut.assertThat (Lut.makeEven (Nat.clog 2 n) ≤ Lut.lutWidth (Nat.clog 2 n))
  pure share

/-- The part of `get_from_lut` on a public table after `join`. -/
def publicLutFinish {t : Nat} (lut : List (ZMod p)) (share : Share (BitVec t))
    (x x' : Share (BitVec t) × List (Share (BitVec 1))) : Rep3M R M (Share (ZMod p)) := do
  let binA ← Lut.lowDepthPost w lut share x x'
  let binB ← reshare binA
  b2aSelector (p := p) ⟨binA, binB⟩

/-- `get_from_lut` on a public table, as `Lut.getFromPublicLut`, with both networks.
`/repo/mpc-core/src/protocols/rep3_ring/lut_field.rs:316-347`, `133-159` -/
def publicLutRead (index : Share (ZMod p)) (lut : List (ZMod p)) : MPC₂ PartyID (Rep3State R) M J (Share (ZMod p)) := do
  let share ← MPC₂.first (publicLutIndex w index lut.length)
  let r ← MPC₂.join (Ring.randOhv (Lut.lutWidth (Nat.clog 2 lut.length)) (Lut.makeEven (Nat.clog 2 lut.length) / 2))
    (Ring.randOhv (Lut.lutWidth (Nat.clog 2 lut.length)) (Lut.makeEven (Nat.clog 2 lut.length) / 2))
  MPC₂.first (publicLutFinish w lut share r.1 r.2)

variable [Fact p.Prime]

/-- `read_lut_by_acvm_type`. `/repo/co-noir/co-acvm/src/mpc/rep3.rs:679-709` -/
def rep3ReadLut : Rep3Val p → Lut.Table (ZMod p) → MPC₂ PartyID (Rep3State R) M J (Rep3Val p)
  | .pub i, .pub vec => MPC₂.first (indexVec .pub i vec)
  | .pub i, .shared vec => MPC₂.first (indexVec .arith i vec)
  | .arith i, .pub vec => do
    let x ← publicLutRead w i vec
    pure (.arith x)
  | .arith i, .shared vec => do
    let x ← MPC₂.first (Lut.getFromSharedLut w i vec)
    pure (.arith x)

end Public

/-- `write_lut_by_acvm_type`. `/repo/co-noir/co-acvm/src/mpc/rep3.rs:743-811` -/
def rep3WriteLut [Fact p.Prime] (lut : Lut.Table (ZMod p)) : Rep3Val p → Rep3Val p → Rep3M R M (Lut.Table (ZMod p))
  | .pub i, .pub v =>
    match lut with
    | .pub vec => setVec .pub i v vec
    | .shared vec => do
      let id ← stateId
      setVec .shared i (promoteToTrivialShare id v) vec
  | .pub i, .arith v =>
    match lut with
    | .pub vec => do
      let id ← stateId
      setVec .shared i v (vec.map (promoteToTrivialShare id))
    | .shared vec => setVec .shared i v vec
  | .arith i, .pub v => do
    let id ← stateId
    Lut.writeToLut w promoteToTrivialShare i (promoteToTrivialShare id v) lut
  | .arith i, .arith v => Lut.writeToLut w promoteToTrivialShare i v lut

variable [Codec J (Share (BitVec w))]

/-- The common part of the bit operations on a public and a shared value: `a2b_selector`, a local operation,
`b2a_selector`. -/
def logicPublic (f : PartyID → Share (BitVec w) → Share (BitVec w)) (x : Share (ZMod p)) : Rep3M R M (Rep3Val p) := do
  let x ← a2bSelector (w := w) x
  let id ← stateId
  let r ← b2aSelector (f id x)
  pure (.arith r)

/-- The end of the bit operations on two shared values. -/
def logicFinish (f : Rep3M R M (Share (BitVec w))) (mask : BitVec w) : Rep3M R M (Rep3Val p) := do
  let binary ← f
  let r ← b2aSelector (binary.andMask mask)
  pure (.arith r)

/-- The common part of the bit operations on two shared values. -/
def logicShared (f : Share (BitVec w) → Share (BitVec w) → Rep3M R M (Share (BitVec w))) (mask : BitVec w)
    (l r : Share (ZMod p)) : MPC₂ PartyID (Rep3State R) M J (Rep3Val p) := do
  let lr ← MPC₂.join (a2bSelector (w := w) l) (a2bSelector (w := w) r)
  MPC₂.first (logicFinish w (f lr.1 lr.2) mask)

/-- `from_uint_reduced` of a masked value. -/
def uintToField (x : BitVec w) : ZMod p := (x.toNat : ZMod p)

/-- `integer_bitwise_and`. `/repo/co-noir/co-acvm/src/mpc/rep3.rs:1014-1049` -/
def rep3And (bits : Nat) : Rep3Val p → Rep3Val p → MPC₂ PartyID (Rep3State R) M J (Rep3Val p)
  | .pub l, .pub r => pure (.pub (uintToField w ((Uint.ofField w l &&& Uint.ofField w r) &&& Uint.mask w bits)))
  | .pub x, .arith y =>
    MPC₂.first (logicPublic w (fun _ y => y.andMask (Uint.ofField w x &&& Uint.mask w bits)) y)
  | .arith y, .pub x =>
    MPC₂.first (logicPublic w (fun _ y => y.andMask (Uint.ofField w x &&& Uint.mask w bits)) y)
  | .arith l, .arith r => logicShared w Bin.and (Uint.mask w bits) l r

/-- `integer_bitwise_xor`. `/repo/co-noir/co-acvm/src/mpc/rep3.rs:1051-1085` -/
def rep3Xor (bits : Nat) : Rep3Val p → Rep3Val p → MPC₂ PartyID (Rep3State R) M J (Rep3Val p)
  | .pub l, .pub r => pure (.pub (uintToField w ((Uint.ofField w l ^^^ Uint.ofField w r) &&& Uint.mask w bits)))
  | .pub x, .arith y =>
    MPC₂.first (logicPublic w (fun id y => (Bin.xorPublic y (Uint.ofField w x) id).andMask (Uint.mask w bits)) y)
  | .arith y, .pub x =>
    MPC₂.first (logicPublic w (fun id y => (Bin.xorPublic y (Uint.ofField w x) id).andMask (Uint.mask w bits)) y)
  | .arith l, .arith r => logicShared w (fun l r => pure (l.bxor r)) (Uint.mask w bits) l r

/-- The Rep3 driver. `/repo/co-noir/co-acvm/src/mpc/rep3.rs:36-110`, `430-1085` -/
def rep3 [Fact p.Prime] [∀ t, Codec J (Share (BitVec t) × List (Share (BitVec 1)))] :
    Driver (MPC₂ PartyID (Rep3State R) M J) (Rep3Val p) (Lut.Table (ZMod p)) (ZMod p) (Share (ZMod p)) where
  zero := .pub 0
  ofPub := .pub
  addAssignWithPublic c t := MPC₂.first (withId fun id => rep3AddPublic id c t)
  addAssign t x := MPC₂.first (withId fun id => rep3AddAssign id t x)
  mulWithPublic c x := pure (rep3MulPublic c x)
  solveMulTerm c l r := MPC₂.first (rep3MulTerm c l r)
  solveLinearTerm q x t := MPC₂.first (withId fun id => rep3LinearTerm id q x t)
  solveEquation q c := MPC₂.first (rep3Equation q c)
  initLut vs := MPC₂.first (withId fun id => rep3InitLut id vs)
  readLut i lut := rep3ReadLut w i lut
  writeLut i v lut := MPC₂.first (rep3WriteLut w lut i v)
  bitwiseAnd l r bits := rep3And w bits l r
  bitwiseXor l r bits := rep3Xor w bits l r
  isShared := VmVal.isArith
  getShared := valShared
  getPublic := valPublic
  openMany a := MPC₂.first (openVec a)
  fail e := MPC₂.first (MPC.throw e)

end Rep3

/-! ### The Shamir driver -/

section Shamir

variable {n : Nat} {R M F : Type} {p : Nat}

/-- `ShamirAcvmType` -/
abbrev ShamirVal (p : Nat) : Type := VmVal (ZMod p) (ZMod p)

variable [Fact p.Prime]

/-- `/repo/co-noir/co-acvm/src/mpc/shamir.rs:250-258` -/
def shamirAddPublic (c : ZMod p) : ShamirVal p → ShamirVal p
  | .pub x => .pub (c + x)
  | .arith x => .arith (Shamir.addPublic x c)

/-- `/repo/co-noir/co-acvm/src/mpc/shamir.rs:390-404` -/
def shamirAddAssign : ShamirVal p → ShamirVal p → ShamirVal p
  | .pub x, .pub y => .pub (x + y)
  | .pub x, .arith y => .arith (Shamir.addPublic y x)
  | .arith x, .pub y => .arith (Shamir.addPublic x y)
  | .arith x, .arith y => .arith (Shamir.add x y)

/-- `/repo/co-noir/co-acvm/src/mpc/shamir.rs:315-322` -/
def shamirMulPublic (c : ZMod p) : ShamirVal p → ShamirVal p
  | .pub x => .pub (c * x)
  | .arith x => .arith (Shamir.mulPublic x c)

/-- `/repo/co-noir/co-acvm/src/mpc/shamir.rs:370-388` -/
def shamirLinearTerm (q : ZMod p) : ShamirVal p → ShamirVal p → ShamirVal p
  | .pub w, .pub t => .pub (q * w + t)
  | .pub w, .arith t => .arith (Shamir.addPublic t (q * w))
  | .arith w, .pub t => .arith (Shamir.addPublic (Shamir.mulPublic w q) t)
  | .arith w, .arith t => .arith (Shamir.add (Shamir.mulPublic w q) t)

variable [Sample R (ZMod p)] [Codec M (ZMod p)] [Codec M (List (ZMod p))]

/-- In the mixed case the coefficient `c` is not used. `/repo/co-noir/co-acvm/src/mpc/shamir.rs:406-426` -/
def shamirMulTerm (c : ZMod p) : ShamirVal p → ShamirVal p → Shamir.ShamirM n R (ZMod p) M (ShamirVal p)
  | .pub l, .pub r => pure (.pub (l * r * c))
  | .pub x, .arith y => pure (.arith (Shamir.mulPublic y x))
  | .arith y, .pub x => pure (.arith (Shamir.mulPublic y x))
  | .arith l, .arith r => do
    let x ← Shamir.mul l r
    pure (.arith (Shamir.mulPublic x c))

/-- `/repo/co-noir/co-acvm/src/mpc/shamir.rs:428-451` -/
def shamirEquation : ShamirVal p → ShamirVal p → Shamir.ShamirM n R (ZMod p) M (ShamirVal p)
  | .pub q, .pub c => pubOr (plainSolveEquation q c)
  | .pub q, .arith c => arithOr (Shamir.divSharedByPublic (Shamir.neg c) q)
  | .arith q, .pub c => do
    let x ← Shamir.divPublicByShared (-c) q
    pure (.arith x)
  | .arith q, .arith c => do
    let x ← Shamir.div (Shamir.neg c) q
    pure (.arith x)

/-- `/repo/co-noir/co-acvm/src/mpc/shamir.rs:626-664` -/
def shamirLogic (f : ZMod p → ZMod p → Nat → ZMod p) (bits : Nat) :
    ShamirVal p → ShamirVal p → Shamir.ShamirM n R (ZMod p) M (ShamirVal p)
  | .pub l, .pub r => pure (.pub (f l r bits))
  | _, _ => panicWith "functionality not feasible for Shamir"

/-- The Shamir driver; its tables do not exist. `/repo/co-noir/co-acvm/src/mpc/shamir.rs:180-664` -/
def shamir : Driver (Shamir.ShamirM n R (ZMod p) M) (ShamirVal p) Unit (ZMod p) (ZMod p) where
  zero := .pub 0
  ofPub := .pub
  addAssignWithPublic c t := pure (shamirAddPublic c t)
  addAssign t x := pure (shamirAddAssign t x)
  mulWithPublic c x := pure (shamirMulPublic c x)
  solveMulTerm := shamirMulTerm
  solveLinearTerm q x t := pure (shamirLinearTerm q x t)
  solveEquation := shamirEquation
  initLut _ := panicWith "init_lut_by_acvm_type: Operation atm not supported"
  readLut _ _ := panicWith "read_lut_by_acvm_type: Operation atm not supported"
  writeLut _ _ _ := panicWith "write_lut_by_acvm_type: Operation atm not supported"
  bitwiseAnd l r bits := shamirLogic plainAnd bits l r
  bitwiseXor l r bits := shamirLogic plainXor bits l r
  isShared := VmVal.isArith
  getShared := valShared
  getPublic := valPublic
  openMany a := Shamir.openVec a
  fail e := MPC.throw e

end Shamir

end Verif.Acvm
