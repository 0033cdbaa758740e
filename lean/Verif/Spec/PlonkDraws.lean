import Verif.Rep3.ArithLemmas

/-!
# Random values of the Rep3 parties in the PLONK prover

The collaborative PLONK prover draws eleven random shared values.  In round 2 it computes two lists of products at the same time, each
with a fork of its state, and masks them with random shared values that must not be zero.
-/

namespace Verif.Plonk

variable {R : Type}

/-- One of the first `n` random shared values drawn from these states is a sharing of zero. -/
def DrawsZero (F : Type) [Field F] [Sample R F] (start : PartyID → Rep3State R) (n : Nat) : Prop :=
  ∃ k < n, Rep3.randValue F ((Rep3.afterRand F)^[k] start) = 0

/-- One of the random values for the products of round 2 is zero, when the prover starts with the states `start` and there are `n`
gates. -/
def MaskZero (F Seed : Type) [Field F] [Sample R F] [Sample R Seed] [Seedable R Seed] (start : PartyID → Rep3State R)
    (n : Nat) : Prop :=
  let st := (Rep3.afterRand F)^[11] start
  let numerator := fun i => ((st i).fork Seed).1
  let st' := fun i => ((st i).fork Seed).2
  let denominator := fun i => ((st' i).fork Seed).1
  DrawsZero F numerator (8 * n + 3) ∨ DrawsZero F denominator (10 * n + 3)

end Verif.Plonk
