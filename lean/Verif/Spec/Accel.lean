import Mathlib.Algebra.BigOperators.Group.Finset.Basic
import Mathlib.Algebra.Field.ZMod

/-!
# Templates of circomlib that have an accelerator

What the templates `IsZero`, `Num2Bits` and `AddBits` assign to their signals (`<--`), and the constraints they emit (`===`,
`<==`).  `/repo/co-circom/co-circom/examples/lib/comparators.circom`, `/repo/co-circom/co-circom/examples/lib/bitify.circom`,
`/repo/test_vectors/WitnessExtension/tests/chacha20.circom`
-/

namespace Verif.Spec.Accel

variable {p : Nat}

/-- The signals of a component from position `o` are its outputs, its inputs and its intermediate signals; `b` is `a` with
other outputs and intermediate signals. -/
def Frame {α : Type} (a b : List α) (o : Nat) (outs ins mids : List α) : Prop :=
  ∃ before outs₀ mids₀ after, before.length = o ∧ outs₀.length = outs.length ∧ mids₀.length = mids.length ∧
    a = before ++ outs₀ ++ ins ++ mids₀ ++ after ∧ b = before ++ outs ++ ins ++ mids ++ after

/-- `inv <-- in!=0 ? 1/in : 0; out <== -in*inv +1;` -/
def IsZero [Fact p.Prime] (inp inv out : ZMod p) : Prop :=
  inv = (if inp ≠ 0 then 1 / inp else 0) ∧ out = -inp * inv + 1

/-- `out <== -in*inv +1; in*out === 0;` -/
def IsZeroConstraints (inp inv out : ZMod p) : Prop := out = -inp * inv + 1 ∧ inp * out = 0

/-- Bit `i` of a field element, `(x >> i) & 1`. -/
def bitOf (x : ZMod p) (i : Nat) : ZMod p := ((x.val >>> i) &&& 1 : Nat)

/-- `out[i] <-- (in >> i) & 1;` -/
def Num2Bits (inp : ZMod p) (out : List (ZMod p)) : Prop := ∀ i < out.length, out[i]? = some (bitOf inp i)

/-- `out[i] * (out[i] -1 ) === 0; lc1 += out[i] * 2**i; lc1 === in;` -/
def Num2BitsConstraints (inp : ZMod p) (out : List (ZMod p)) : Prop :=
  (∀ c ∈ out, c * (c - 1) = 0) ∧ ∑ i ∈ Finset.range out.length, out.getD i 0 * 2 ^ i = inp

/-- `lin += (a[k] + b[k]) * 2**(BITS - 1 - k);` -/
def lin (a b : List (ZMod p)) : ZMod p :=
  ∑ k ∈ Finset.range a.length, (a.getD k 0 + b.getD k 0) * 2 ^ (a.length - 1 - k)

/-- `out[k] <-- (lin >> (BITS - 1 - k)) & 1; carrybit <-- (lin >> BITS) & 1;` -/
def AddBits (a b : List (ZMod p)) (carry : ZMod p) (out : List (ZMod p)) : Prop :=
  out.length = a.length ∧ (∀ k < a.length, out[k]? = some (bitOf (lin a b) (a.length - 1 - k))) ∧
    carry = bitOf (lin a b) a.length

/-- All of `out` and `carry` are bits, and `lin === lout;` -/
def AddBitsConstraints (a b : List (ZMod p)) (carry : ZMod p) (out : List (ZMod p)) : Prop :=
  (∀ c ∈ carry :: out, c * (c - 1) = 0) ∧
    lin a b = ∑ k ∈ Finset.range out.length, out.getD k 0 * 2 ^ (out.length - 1 - k) + carry * 2 ^ out.length

end Verif.Spec.Accel
