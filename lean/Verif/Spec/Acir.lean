import Verif.CoNoir.Acvm
import Mathlib.Algebra.BigOperators.Group.List.Basic

/-!
# What the opcodes of a Noir program mean

A constraint system in the opcodes of ACIR, the intermediate language of Noir, is satisfied by an *assignment*: a value for
every witness.  Memory blocks are tables that come into being with `MemoryInit` and change with every write.
-/

namespace Verif.Spec.Acir

open Acvm (Expression Input Opcode)

variable {p : Nat}

/-- An assignment. -/
abbrev Assignment (p : Nat) : Type := Nat → ZMod p

/-- The contents of the memory blocks. -/
abbrev Memory (p : Nat) : Type := Nat → Option (List (ZMod p))

/-- The value of an expression. -/
def eval (a : Assignment p) (e : Expression (ZMod p)) : ZMod p :=
  (e.mulTerms.map fun t => t.1 * a t.2.1 * a t.2.2).sum + (e.linear.map fun t => t.1 * a t.2).sum + e.qc

/-- The value of an input of a function. -/
def inputVal (a : Assignment p) : Input (ZMod p) → ZMod p
  | .witness w => a w
  | .constant c => c

/-- The contents of the memory blocks after an opcode. -/
def next (a : Assignment p) (mem : Memory p) : Opcode (ZMod p) → Memory p
  | .memoryInit b init => Function.update mem b (some (init.map a))
  | .memoryWrite b i v => Function.update mem b ((mem b).map fun l => l.set (a i).val (a v))
  | _ => mem

/-- An opcode is satisfied. -/
def Holds (a : Assignment p) (mem : Memory p) : Opcode (ZMod p) → Prop
  | .assertZero e => eval a e = 0
  | .memoryInit b _ => mem b = none
  | .memoryRead b i v => ∃ l, mem b = some l ∧ l[(a i).val]? = some (a v)
  | .memoryWrite b i _ => ∃ l, mem b = some l ∧ (a i).val < l.length
  | .range x bits => (inputVal a x).val < 2 ^ bits
  | .and x y bits o => a o = (((inputVal a x).val &&& (inputVal a y).val) % 2 ^ bits : Nat)
  | .xor x y bits o => a o = (((inputVal a x).val ^^^ (inputVal a y).val) % 2 ^ bits : Nat)
  | .call => False

/-- All opcodes are satisfied, one after the other. -/
def Satisfies (a : Assignment p) : Memory p → List (Opcode (ZMod p)) → Prop
  | _, [] => True
  | mem, op :: ops => Holds a mem op ∧ Satisfies a (next a mem op) ops

/-- No memory blocks. -/
def noMemory : Memory p := fun _ => none

/-- The assignment has the values of the witness map `W`. -/
def Extends (a : Assignment p) (W : Nat → Option (ZMod p)) : Prop := ∀ w v, W w = some v → a w = v

/-! ### Which witnesses are known when

These notions depend on the text of the program and on which inputs are given, not on values. -/

/-- The witnesses that occur in an expression; products with coefficient zero do not count. -/
def mentions (e : Expression (ZMod p)) (w : Nat) : Prop :=
  (∃ t ∈ e.mulTerms, t.1 ≠ 0 ∧ (t.2.1 = w ∨ t.2.2 = w)) ∨ ∃ t ∈ e.linear, t.2 = w

/-- The witnesses known after an opcode. -/
def learn (known : Nat → Prop) : Opcode (ZMod p) → Nat → Prop
  | .assertZero e => fun w => known w ∨ mentions e w
  | .memoryRead _ _ v => fun w => known w ∨ w = v
  | .and _ _ _ o => fun w => known w ∨ w = o
  | .xor _ _ _ o => fun w => known w ∨ w = o
  | _ => known

/-- The witnesses known after all opcodes. -/
def learnAll : (Nat → Prop) → List (Opcode (ZMod p)) → Nat → Prop
  | known, [] => known
  | known, op :: ops => learnAll (learn known op) ops

/-- The constraints that mention known witnesses only when their turn comes. -/
def IsSettled (known : Nat → Prop) : List (Opcode (ZMod p)) → Expression (ZMod p) → Prop
  | [], _ => False
  | op :: ops, e => (op = .assertZero e ∧ ∀ w, mentions e w → known w) ∨ IsSettled (learn known op) ops e

/-- No value is read from memory into a witness that is known already. -/
def FreshReads (known : Nat → Prop) : List (Opcode (ZMod p)) → Prop
  | [] => True
  | op :: ops => (∀ b i v, op = .memoryRead b i v → ¬ known v) ∧ FreshReads (learn known op) ops

/-- Some constraint multiplies two witnesses one of which is unknown when its turn comes. -/
def Inverts (known : Nat → Prop) : List (Opcode (ZMod p)) → Prop
  | [] => False
  | op :: ops => (∃ e, op = .assertZero e ∧ ∃ t ∈ e.mulTerms, t.1 ≠ 0 ∧ (¬ known t.2.1 ∨ ¬ known t.2.2)) ∨
      Inverts (learn known op) ops

/-- The occurrences of unknown witnesses in an expression, with their coefficients under the assignment `a`. -/
noncomputable def unknowns (a : Assignment p) (known : Nat → Prop) (e : Expression (ZMod p)) : List (ZMod p × Nat) :=
  open Classical in
  (e.mulTerms.filterMap fun t =>
    if t.1 = 0 then none
    else if ¬ known t.2.2 then some (t.1 * a t.2.1, t.2.2)
    else if ¬ known t.2.1 then some (t.1 * a t.2.2, t.2.1) else none) ++
  e.linear.filterMap fun t => if known t.2 then none else some t

/-- Known inputs of a function. -/
def inputKnown (known : Nat → Prop) : Input (ZMod p) → Prop
  | .witness w => known w
  | .constant _ => True

/-- An opcode determines what it is solved for: an expression has at most one occurrence of an unknown witness, with a
coefficient other than zero; the operands of all others are known, and indices and tables are of machine size. -/
def Determined (a : Assignment p) (known : Nat → Prop) : Opcode (ZMod p) → Prop
  | .assertZero e => (∀ t ∈ e.mulTerms, t.1 ≠ 0 → known t.2.1 ∨ known t.2.2) ∧
      (unknowns a known e).length ≤ 1 ∧ ∀ t ∈ unknowns a known e, t.1 ≠ 0
  | .memoryInit _ init => ∀ w ∈ init, known w
  | .memoryRead _ i _ => known i ∧ (a i).val < 2 ^ 64
  | .memoryWrite _ i v => known i ∧ known v ∧ (a i).val < 2 ^ 64
  | .range x _ => inputKnown known x
  | .and x y bits _ => inputKnown known x ∧ inputKnown known y ∧
      (inputVal a x).val < 2 ^ bits ∧ (inputVal a y).val < 2 ^ bits
  | .xor x y bits _ => inputKnown known x ∧ inputKnown known y ∧
      (inputVal a x).val < 2 ^ bits ∧ (inputVal a y).val < 2 ^ bits
  | .call => False

/-- All opcodes determine what they are solved for. -/
def Solvable (a : Assignment p) (known : Nat → Prop) : List (Opcode (ZMod p)) → Prop
  | [] => True
  | op :: ops => Determined a known op ∧ Solvable a (learn known op) ops

end Verif.Spec.Acir
