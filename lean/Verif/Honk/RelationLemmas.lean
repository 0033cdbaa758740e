import Verif.Honk.Sumcheck
import Mathlib.Tactic.Ring

/-! # The two implementations of the relations compute the values of the specification -/

namespace Verif.Honk

variable {F : Type} [Field F]

theorem contribution_eq {n : Nat} (p : Params F) (e : Col → Univariate F n) (s : F) (r : Subrel) (i : Fin n) :
    contribution p e s r i = (if r.independent then s else 1) * r.value F p (fun c => e c i) := by
  cases r <;>
    simp [contribution, Subrel.independent, Subrel.value, arithAccumulate, permAccumulate, lookupAccumulate, deltaAccumulate,
      ellipticAccumulate, memoryAccumulate, nnfAccumulate, externalAccumulate, internalAccumulate, inverseExists, proverReadTerm,
      proverWriteTerm, readTerm, writeTerm, record, inRange, Univariate.sqr, Univariate.double, -mul_eq_mul_left_iff, -mul_eq_mul_right_iff] <;> ring

theorem evaluation_eq (p : Params F) (e : Col → F) (s : F) (r : Subrel) :
    evaluation p e s r = (if r.independent then s else 1) * r.value F p e := by
  cases r <;>
    simp [evaluation, Subrel.independent, Subrel.value, arithVerify, permVerify, lookupVerify, deltaVerify,
      ellipticVerify, memoryVerify, nnfVerify, externalVerify, internalVerify, inverseExistsVerifier, readTermVerifier,
      writeTermVerifier, readTerm, writeTerm, record, inRange, square, twice, -mul_eq_mul_left_iff, -mul_eq_mul_right_iff] <;> ring

end Verif.Honk
