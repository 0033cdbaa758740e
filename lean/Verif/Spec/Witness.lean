import Verif.CoCircom.Witness
import Verif.Spec.Sharing

/-!
# Specification: what the parties hold of a witness
-/

namespace Verif.CoCircom

open Rep3

variable {F Seed P S : Type}

/-- The three parties hold additive shares of the values. -/
def IsAdditives [AddCommGroup F] (x : PartyID → List F) (vs : List F) : Prop :=
  ∃ l : List (PartyID → F), (x = fun i => l.map (· i)) ∧ List.Forall₂ IsAdditive l vs

/-- The three parties hold the values in one of the four forms of a shared witness: replicated shares, seeds that expand
to such shares, additive shares, or seeds that expand to such shares. -/
inductive Represents (R : Type) [AddCommGroup F] [Sample R F] [Seedable R Seed] :
    (PartyID → ShareVec F Seed) → List F → Prop
  | replicated {s ws} (h : IsShares s ws) : Represents R (fun i => .replicated (s i)) ws
  | seededReplicated {s : PartyID → ReplicatedSeed (List F) Seed} {e ws} (he : ∀ i, (s i).expandVec R = .ok (e i))
      (h : IsShares e ws) : Represents R (fun i => .seededReplicated (s i)) ws
  | additive {x ws} (h : IsAdditives x ws) : Represents R (fun i => .additive (x i)) ws
  | seededAdditive {s : PartyID → Seeded (List F) Seed} {ws} (h : IsAdditives (fun i => (s i).expandVec R) ws) :
      Represents R (fun i => .seededAdditive (s i)) ws

/-- A form belongs to a compression. -/
def ShareVec.Form : Compression → ShareVec F Seed → Prop
  | .none, .replicated _ => True
  | .seededShares, .seededReplicated _ => True
  | .halfShares, .additive _ => True
  | .seededHalfShares, .seededAdditive _ => True
  | _, _ => False

/-- The rows of a batch all have the length `n`. -/
def Rows {α : Type} (n : Nat) (rows : List (List α)) : Prop := ∀ r ∈ rows, r.length = n

/-- `r` is entry `b` of every row. -/
def IsColumn {α : Type} (rows : List (List α)) (b : Nat) (r : List α) : Prop :=
  List.Forall₂ (fun x row => row[b]? = some x) r rows

end Verif.CoCircom
