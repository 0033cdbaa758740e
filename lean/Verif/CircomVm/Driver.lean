import Verif.Rep3.Arith
import Verif.Rep3.Binary
import Mathlib.Algebra.Field.ZMod

/-!
# The drivers of the circom witness extension VM

The VM (`Verif/CircomVm/Vm.lean`) is written against the operations of `VmCircomWitnessExtension`.  This file has the
interface, the plain driver and a reference driver; the drivers of the MPC protocols are in their own files.

Models: `/repo/co-circom/circom-mpc-vm/src/mpc.rs`, `/repo/co-circom/circom-mpc-vm/src/mpc/plain.rs`.
-/

namespace Verif.CircomVm

/-- The binary operations of `VmCircomWitnessExtension`. `/repo/co-circom/circom-mpc-vm/src/mpc.rs` -/
inductive BinOp where
  | add | sub | mul | div | intDiv | pow | mod
  | lt | le | gt | ge | eq | neq
  | shiftR | shiftL | boolOr | boolAnd | bitOr | bitAnd | bitXor
  deriving DecidableEq, Repr

/-- The trait `VmCircomWitnessExtension`: `V` is `VmType`, `P` is `Public`, `A` is `ArithmeticShare`; `m` is the monad
of the calls, `fail` is a panic or a returned error.  The binary operations are collected in `bin`.  The text that `log`
returns is modelled by the value it shows (`none` for `"secret"`).  `ofPub` is the conversion of the constants of the
program.  `poseidon2_accelerator` is not modelled.
`/repo/co-circom/circom-mpc-vm/src/mpc.rs` -/
structure Driver (m : Type → Type) (V P A : Type) where
  bin : BinOp → V → V → m V
  neg : V → m V
  sqrt : V → m V
  boolNot : V → m V
  cmux : V → V → V → m V
  isZero : V → Bool → m Bool
  isShared : V → m Bool
  toIndex : V → m Nat
  openV : V → m P
  toShare : V → m A
  one : V
  zero : V
  num2bits : V → Nat → m (List V)
  addbits : List V → List V → m (List V × V)
  log : V → Bool → m (Option P)
  compareConfig : List Bool → m Unit
  ofPub : P → V
  fail : {α : Type} → Err → m α

/-! ### The plain driver -/

section Plain

variable {p : Nat}

/-- `(p + 1) / 2`, the inverse of two. `/repo/co-circom/circom-mpc-vm/src/mpc/plain.rs:44-51` -/
def negativeOne (p : Nat) : ZMod p := 2⁻¹

/-- `/repo/co-circom/circom-mpc-vm/src/mpc/plain.rs:53-63` -/
def shiftedVal (z : ZMod p) : ZMod p := z - negativeOne p

/-- `/repo/co-circom/circom-mpc-vm/src/mpc/plain.rs:65-68` -/
def isNegative (x : ZMod p) : Bool := decide ((negativeOne p).val ≤ x.val)

/-- The bit as a field element. -/
def bit (b : Bool) : ZMod p := if b then 1 else 0

/-- `to_usize!`. `/repo/co-circom/circom-mpc-vm/src/mpc/plain.rs:10-24` -/
def toUsize (x : ZMod p) : Except Err Nat :=
  if x.val < 2 ^ 64 then .ok x.val else .error (.err "Cannot convert var into usize")

/-- `/repo/co-circom/circom-mpc-vm/src/mpc/plain.rs:75-254`.  The `debug_assert!`s of `bool_and` and `bool_or` are not
modelled (release build). -/
def plainBin : BinOp → ZMod p → ZMod p → Except Err (ZMod p)
  | .add, a, b => .ok (a + b)
  | .sub, a, b => .ok (a - b)
  | .mul, a, b => .ok (a * b)
  | .div, a, b => if b = 0 then .error (.panic "called `Option::unwrap()` on a `None` value") else .ok (a * b⁻¹)
  | .intDiv, a, b => if b.val = 0 then .error (.panic "attempt to divide by zero") else .ok ((a.val / b.val : Nat) : ZMod p)
  | .pow, a, b => .ok (a ^ b.val)
  | .mod, a, b => if b.val = 0 then .error (.panic "attempt to divide by zero") else .ok ((a.val % b.val : Nat) : ZMod p)
  | .lt, a, b => .ok (bit (decide ((shiftedVal a).val < (shiftedVal b).val)))
  | .le, a, b => .ok (bit (decide ((shiftedVal a).val ≤ (shiftedVal b).val)))
  | .gt, a, b => .ok (bit (decide ((shiftedVal a).val > (shiftedVal b).val)))
  | .ge, a, b => .ok (bit (decide ((shiftedVal a).val ≥ (shiftedVal b).val)))
  | .eq, a, b => .ok (bit (decide (a = b)))
  | .neq, a, b => .ok (bit (decide (a ≠ b)))
  | .shiftR, a, b => do
    let shift ← toUsize b
    .ok ((a.val >>> shift : Nat) : ZMod p)
  | .shiftL, a, b => do
    let shift ← toUsize b
    .ok (a * 2 ^ shift)
  | .boolOr, a, b => do
    let lhs ← toUsize a
    let rhs ← toUsize b
    .ok (bit (decide (rhs = 1 ∨ lhs = 1)))
  | .boolAnd, a, b => do
    let lhs ← toUsize a
    let rhs ← toUsize b
    .ok (bit (decide (rhs = 1 ∧ lhs = 1)))
  | .bitOr, a, b => .ok ((a.val ||| b.val : Nat) : ZMod p)
  | .bitAnd, a, b => .ok ((a.val &&& b.val : Nat) : ZMod p)
  | .bitXor, a, b => .ok ((a.val ^^^ b.val : Nat) : ZMod p)

/-- `assert!(a.is_one() || a.is_zero())` -/
def assertBit (a : ZMod p) : Except Err Unit :=
  if a = 1 ∨ a = 0 then .ok () else .error (.panic "assertion failed: a.is_one() || a.is_zero()")

/-- `/repo/co-circom/circom-mpc-vm/src/mpc/plain.rs:288-295` -/
def plainNum2bits (a : ZMod p) (bits : Nat) : List (ZMod p) := (List.range bits).map fun i => bit (a.val.testBit i)

/-- Horner evaluation at two, highest bit first. -/
def fromBits (l : List (ZMod p)) : ZMod p := l.foldl (fun acc x => acc + acc + x) 0

/-- `/repo/co-circom/circom-mpc-vm/src/mpc/plain.rs:297-318` -/
def plainAddbits (a b : List (ZMod p)) : Except Err (List (ZMod p) × ZMod p) :=
  if a.length ≠ b.length then .error (.panic "assertion failed: a.len() == b.len()")
  else if ¬ (a.length < modBits p - 1) then
    .error (.panic "assertion failed: bitlen < F::MODULUS_BIT_SIZE as usize - 1")
  else
    let sum := (fromBits a + fromBits b).val
    .ok (((List.range a.length).map fun i => bit (sum.testBit i)).reverse, bit (sum.testBit a.length))

variable [Fact p.Prime] [Rep3.HasSqrt (ZMod p)]

/-- `/repo/co-circom/circom-mpc-vm/src/mpc/plain.rs:108-117` -/
def plainSqrt (a : ZMod p) : Except Err (ZMod p) :=
  match Rep3.HasSqrt.sqrt a with
  | none => .error (.err "cannot compute sqrt")
  | some r => .ok (if isNegative r then -r else r)

/-- The plain driver. `/repo/co-circom/circom-mpc-vm/src/mpc/plain.rs:71-335` -/
def plain (p : Nat) [Fact p.Prime] [Rep3.HasSqrt (ZMod p)] : Driver (Except Err) (ZMod p) (ZMod p) (ZMod p) where
  bin := plainBin
  neg a := .ok (-a)
  sqrt := plainSqrt
  boolNot a := do
    assertBit a
    .ok (1 - a)
  cmux cond t f := do
    assertBit cond
    .ok (if cond = 1 then t else f)
  isZero a _ := .ok (decide (a = 0))
  isShared _ := .ok false
  toIndex := toUsize
  openV a := .ok a
  toShare a := .ok a
  one := 1
  zero := 0
  num2bits a n := .ok (plainNum2bits a n)
  addbits := plainAddbits
  log a _ := .ok (some a)
  compareConfig _ := .ok ()
  ofPub := id
  fail e := .error e

end Plain

/-! ### Values of the MPC drivers -/

/-- A value of the VM of an MPC driver: public, or an arithmetic share.
`Rep3VmType`, `/repo/co-circom/circom-mpc-vm/src/mpc/rep3.rs:32-41`; `ShamirVmType`,
`/repo/co-circom/circom-mpc-vm/src/mpc/shamir.rs` -/
inductive VmVal (F A : Type) where
  | pub (v : F)
  | arith (s : A)
  deriving DecidableEq, Repr

/-! ### The reference driver

It works on values in the clear which are marked public or secret (`VmVal F F`), gives the result of the plain driver,
and marks results as the MPC drivers do.  It refuses the calls for which the Rep3 driver does not have this result; each
refusal is a clause of `supported`.  It is part of the specification. -/

/-- What the reference driver accepts.  `shared`: branches on secret values; `randomized`: operations that the Rep3
driver does with a random mask which must not be zero (division by a secret, square root of a secret). -/
structure RefCfg where
  shared : Bool
  randomized : Bool

namespace VmVal

variable {F : Type}

/-- The value in the clear. -/
def val : VmVal F F → F
  | .pub v => v
  | .arith v => v

/-- Whether the value is secret. -/
def isArith {A : Type} : VmVal F A → Bool
  | .pub _ => false
  | .arith _ => true

end VmVal

section Ref

variable {p : Nat}

/-- Zero or one. -/
def IsBit (a : ZMod p) : Prop := a = 0 ∨ a = 1

instance (a : ZMod p) : Decidable (IsBit a) := inferInstanceAs (Decidable (_ ∨ _))

/-- The calls with at least one secret argument for which the Rep3 driver returns a sharing of the result of the plain
driver. -/
def supported (c : RefCfg) : BinOp → VmVal (ZMod p) (ZMod p) → VmVal (ZMod p) (ZMod p) → Bool
  | .add, _, _ => true
  | .sub, _, _ => true
  | .mul, _, _ => true
  | .div, _, .pub b => decide (b ≠ 0)
  | .div, _, .arith b => c.randomized && decide (b ≠ 0)
  | .intDiv, _, b => decide (b.val ≠ 0)
  | .pow, _, .pub _ => true
  | .pow, _, .arith _ => false
  | .mod, .arith _, .pub b => decide (b ≠ 0) && decide (b ≠ 1)
  | .mod, _, b => decide (b.val ≠ 0)
  -- comparisons of a public with an equal secret value are wrong (finding F19)
  | .lt, .pub a, .arith b => decide (a ≠ b)
  | .le, .pub a, .arith b => decide (a ≠ b)
  | .gt, .pub a, .arith b => decide (a ≠ b)
  | .ge, .pub a, .arith b => decide (a ≠ b)
  | .lt, _, _ => true
  | .le, _, _ => true
  | .gt, _, _ => true
  | .ge, _, _ => true
  | .eq, _, _ => true
  | .neq, _, _ => true
  | .shiftR, .pub a, _ => decide (a = 0)
  | .shiftR, .arith _, .pub b => decide (b.val < 2 ^ 64)
  | .shiftR, .arith _, .arith _ => false
  | .shiftL, .pub a, b => decide (a = 0) || decide (b.val.val < 256)
  | .shiftL, .arith _, .pub b => decide (b.val < modBits p) && decide (b.val < 2 ^ 32)
  | .shiftL, .arith _, .arith _ => false
  | .boolOr, a, b => decide (IsBit a.val) && decide (IsBit b.val)
  | .boolAnd, a, b => decide (IsBit a.val) && decide (IsBit b.val)
  | .bitOr, a, b => decide (a.val.val ||| b.val.val < p)
  | .bitAnd, _, _ => true
  | .bitXor, a, b => decide (a.val.val ^^^ b.val.val < p)

/-- Operations on a public and a secret value with a public result: a power with exponent zero, a shift of zero. -/
def publicResult : BinOp → VmVal (ZMod p) (ZMod p) → VmVal (ZMod p) (ZMod p) → Bool
  | .pow, _, .pub b => decide (b = 0)
  | .shiftR, .pub _, _ => true
  | .shiftL, .pub a, _ => decide (a = 0)
  | _, _, _ => false

/-- The refusals of the reference driver. -/
def refuse {α : Type} : Except Err α := .error (.err "refused by the reference driver")

/-- Binary operations of the reference driver. -/
def refBin (c : RefCfg) (op : BinOp) : VmVal (ZMod p) (ZMod p) → VmVal (ZMod p) (ZMod p) → Except Err (VmVal (ZMod p) (ZMod p))
  | .pub a, .pub b => .pub <$> plainBin op a b
  | a, b =>
    if supported c op a b then
      (if publicResult op a b then .pub else .arith) <$> plainBin op a.val b.val
    else refuse

/-- The reference `cmux`. -/
def refCmux : VmVal (ZMod p) (ZMod p) → VmVal (ZMod p) (ZMod p) → VmVal (ZMod p) (ZMod p) → Except Err (VmVal (ZMod p) (ZMod p))
  | .pub c, t, f => do
    assertBit c
    .ok (if c = 1 then t else f)
  | .arith c, t, f => if IsBit c then .ok (.arith (if c = 1 then t.val else f.val)) else refuse

variable [Fact p.Prime] [Rep3.HasSqrt (ZMod p)]

/-- The reference driver. -/
def ref (p : Nat) [Fact p.Prime] [Rep3.HasSqrt (ZMod p)] (c : RefCfg) :
    Driver (Except Err) (VmVal (ZMod p) (ZMod p)) (ZMod p) (ZMod p) where
  bin := refBin c
  neg
    | .pub a => .ok (.pub (-a))
    | .arith a => .ok (.arith (-a))
  sqrt
    | .pub a => .pub <$> plainSqrt a
    | .arith a => if c.randomized then .arith <$> plainSqrt a else refuse
  boolNot
    | .pub a => .pub <$> (plain p).boolNot a
    | .arith a => if IsBit a then .ok (.arith (1 - a)) else refuse
  cmux := refCmux
  isZero a allow :=
    if a.isArith && !allow then .error (.err "allow_secret_inputs is false and input is shared")
    else .ok (decide (a.val = 0))
  isShared a := if a.isArith && !c.shared then refuse else .ok a.isArith
  toIndex
    | .pub a => toUsize a
    | .arith _ => .error (.err "ToIndex called on shared value!")
  openV a := .ok a.val
  toShare a := .ok a.val
  one := .pub 1
  zero := .pub 0
  num2bits
    | .pub a, n => .ok ((plainNum2bits a n).map .pub)
    | .arith a, n => .ok ((plainNum2bits a n).map .arith)
  addbits a b := do
    let (r, carry) ← plainAddbits (a.map VmVal.val) (b.map VmVal.val)
    .ok (r.map .arith, .arith carry)
  log
    | .pub a, _ => .ok (some a)
    | .arith a, leaky => .ok (if leaky then some a else none)
  compareConfig _ := .ok ()
  ofPub := .pub
  fail e := .error e

end Ref

end Verif.CircomVm
