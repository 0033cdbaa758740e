import Verif.Rep3.Share
import Mathlib.Algebra.Group.Defs
import Mathlib.Data.List.Forall2

/-!
# Specification: what it means to hold a sharing of a value

Read this file to understand the property statements about Rep3.
-/

namespace Verif

open PartyID

variable {G : Type}

/-- The three parties hold a replicated additive sharing of `v`: the second component of every party
is the first component of the previous party, and the three first components add up to `v`. -/
def IsShare [AddCommGroup G] (s : PartyID → Share G) (v : G) : Prop :=
  (∀ i, (s i).b = (s i.prev).a) ∧ (s ID0).a + (s ID1).a + (s ID2).a = v

/-- The three parties hold vectors of replicated sharings of the values `vs` (same length,
position by position). -/
def IsShares [AddCommGroup G] (s : PartyID → List (Share G)) (vs : List G) : Prop :=
  ∃ l : List (PartyID → Share G), (s = fun i => l.map (· i)) ∧ List.Forall₂ IsShare l vs

/-- The three parties hold a replicated XOR sharing of the bit string `v`. -/
def IsBShare {w : Nat} (s : PartyID → Share (BitVec w)) (v : BitVec w) : Prop :=
  (∀ i, (s i).b = (s i.prev).a) ∧ (s ID0).a ^^^ (s ID1).a ^^^ (s ID2).a = v

/-- Vectors of XOR sharings. -/
def IsBShares {w : Nat} (s : PartyID → List (Share (BitVec w))) (vs : List (BitVec w)) : Prop :=
  ∃ l : List (PartyID → Share (BitVec w)), (s = fun i => l.map (· i)) ∧ List.Forall₂ IsBShare l vs

/-- The three parties hold a replicated XOR sharing of the bit `b`, and every party's components are
single bits too. -/
def IsBitShare {w : Nat} (s : PartyID → Share (BitVec w)) (b : Bool) : Prop :=
  IsBShare s (if b then 1#w else 0#w) ∧ ∀ i, (s i).a.toNat < 2 ∧ (s i).b.toNat < 2

/-- Vectors of bit sharings. -/
def IsBitShares {w : Nat} (s : PartyID → List (Share (BitVec w))) (bs : List Bool) : Prop :=
  ∃ l : List (PartyID → Share (BitVec w)), (s = fun i => l.map (· i)) ∧ List.Forall₂ IsBitShare l bs

/-- Additive sharing with one component per party. -/
def IsAdditive [AddCommGroup G] (s : PartyID → G) (v : G) : Prop :=
  s ID0 + s ID1 + s ID2 = v

end Verif
