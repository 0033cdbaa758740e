import Verif.Spec.Poseidon2
import Verif.Gadgets.Merkle

/-!
# Specification: Merkle trees

Of the model only the records of parameters and of witness elements are used.
-/

namespace Verif.Merkle

open Poseidon2

variable {F : Type}

/-- The root of a tree of the given depth in which every inner node has `arity` children and is the hash of the
list of its children. -/
def merkleRoot [Zero F] (h : List F → F) (arity : Nat) : Nat → List F → F
  | 0, leaves => leaves.headD 0
  | d + 1, leaves =>
    h ((List.range arity).map fun k => merkleRoot h arity d ((leaves.drop (k * arity ^ d)).take (arity ^ d)))

/-- Sponge with one block: the first element of the permuted state, which is filled up with zeros. -/
def spongeHash [CommRing F] (p : Params F) (xs : List F) : F :=
  (poseidon2 p (xs ++ List.replicate (p.t - xs.length) 0)).headD 0

/-- Compression: the first element of the permuted state plus the first input. -/
def compressionHash [CommRing F] (p : Params F) (xs : List F) : F :=
  (poseidon2 p (xs ++ List.replicate (p.t - xs.length) 0)).headD 0 + xs.headD 0

/-- The children of a node on a path: the other values with the value itself put in at its position. -/
def children (w : WitnessElement F) (x : F) : List F := w.other.take w.position ++ x :: w.other.drop w.position

/-- The root a path leads to. -/
def pathRoot (h : List F → F) : F → List (WitnessElement F) → F
  | x, [] => x
  | x, w :: ws => pathRoot h (h (children w x)) ws

/-- The index of the leaf a path starts from: its digits are the positions, the lowest first. -/
def pathIndex (arity : Nat) : List (WitnessElement F) → Nat
  | [] => 0
  | w :: ws => w.position + arity * pathIndex arity ws

/-- Every node on the path has `arity` children. -/
def PathArity (arity : Nat) (ws : List (WitnessElement F)) : Prop :=
  ∀ w ∈ ws, w.other.length + 1 = arity ∧ w.position < arity

/-- Two different lists of `arity` elements with the same hash. -/
def Collision (h : List F → F) (arity : Nat) : Prop :=
  ∃ xs ys : List F, xs.length = arity ∧ ys.length = arity ∧ xs ≠ ys ∧ h xs = h ys

end Verif.Merkle
