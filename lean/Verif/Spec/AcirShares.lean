import Verif.CoNoir.AcvmDrivers

/-!
# Shared witness maps, and which Noir programs a protocol supports
-/

namespace Verif.Acvm

open CircomVm (VmVal)

/-- What the parties have represents the value `v`: the same public value, or a sharing of it. -/
def IsVal {ι F A : Type} (Sh : (ι → A) → F → Prop) (x : ι → VmVal F A) (v : F) : Prop :=
  (x = fun _ => .pub v) ∨ ∃ s, (x = fun i => .arith (s i)) ∧ Sh s v

/-- What a driver supports: lengths of tables, widths of `AND` and `XOR`, coefficients of products. -/
structure Support (p : Nat) where
  lut : Nat → Prop
  and : Nat → Prop
  xor : Nat → Prop
  mul : ZMod p → Prop

/-- The opcode is supported. -/
def Support.Ok {p : Nat} (S : Support p) : Opcode (ZMod p) → Prop
  | .assertZero e => ∀ t ∈ e.mulTerms, t.1 ≠ 0 → S.mul t.1
  | .memoryInit _ init => S.lut init.length
  | .and _ _ bits _ => S.and bits
  | .xor _ _ bits _ => S.xor bits
  | _ => True

/-- What the Rep3 driver supports: tables with at least three entries, and `XOR` of at most as many bits as the field
represents. -/
def rep3Support (p : Nat) : Support p where
  lut n := 3 ≤ n ∧ n ≤ 2 ^ 32
  and _ := True
  xor bits := 2 ^ bits ≤ p
  mul _ := True

/-- What the Shamir driver supports. -/
def shamirSupport (p : Nat) : Support p where
  lut _ := False
  and _ := False
  xor _ := False
  mul c := c = 1

variable {ι : Type} {p : Nat} {A : Type}

/-- The witness maps of the parties represent a plain one. -/
def Represents (Sh : (ι → A) → ZMod p → Prop) (W : ι → Nat → Option (VmVal (ZMod p) A))
    (Wp : Nat → Option (ZMod p)) : Prop :=
  ∀ w, (Wp w = none ∧ ∀ i, W i w = none) ∨ ∃ v x, Wp w = some v ∧ (∀ i, W i w = some (x i)) ∧ IsVal Sh x v

/-- The results of the parties represent a plain result; the witnesses `returns` are public. -/
def SolvedR (Sh : (ι → A) → ZMod p → Prop) (returns : List Nat)
    (a : ι → (Nat → Option (VmVal (ZMod p) A)) × List (VmVal (ZMod p) A)) (b : (Nat → Option (ZMod p)) × List (ZMod p)) : Prop :=
  Represents Sh (fun i => (a i).1) b.1 ∧ (∀ i, (a i).2 = b.2.map .pub) ∧
    ∀ w ∈ returns, ∃ v, ∀ i, (a i).1 w = some (.pub v)

end Verif.Acvm
