import Mathlib.Data.ZMod.Basic
import Verif.Spec.Sharing

/-!
# Specification: one-hot vectors and tables

Independent of the model of the lookup tables.
-/

namespace Verif

/-- The vector of length `n` that is `1` at position `v` and `0` elsewhere. -/
def oneHot {α : Type} [Zero α] [One α] (n v : Nat) : List α := (List.range n).map fun j => if j = v then 1 else 0

/-- A client's operation on a table. -/
inductive TableOp (I V : Type)
  | get (index : I)
  | set (index : I) (value : V)

/-- What a sequence of operations does to an array: the values read, in order, and the array at the end.
Operations on positions outside the array do not occur (`InRange`). -/
def playArray {V : Type} [Inhabited V] : List (TableOp Nat V) → List V → List V × List V
  | [], a => ([], a)
  | .get i :: ops, a => (a[i]! :: (playArray ops a).1, (playArray ops a).2)
  | .set i v :: ops, a => playArray ops (a.set i v)

/-- All positions are inside an array of length `n`. -/
def InRange {V : Type} (n : Nat) : TableOp Nat V → Prop
  | .get i => i < n
  | .set i _ => i < n

end Verif
