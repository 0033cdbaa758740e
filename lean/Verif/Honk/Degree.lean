import Verif.Honk.RelationLemmas
import Mathlib.Algebra.Polynomial.AlgebraMap
import Mathlib.Tactic.ComputeDegree

/-! # The subrelations as polynomials along a line -/

namespace Verif.Honk

open Polynomial

variable {F : Type} [Field F]

/-- The parameters as constant polynomials. -/
noncomputable def Params.const (p : Params F) : Params F[X] where
  eta1 := C p.eta1
  eta2 := C p.eta2
  eta3 := C p.eta3
  beta := C p.beta
  gamma := C p.gamma
  publicInputDelta := C p.publicInputDelta
  curveB := C p.curveB
  diag1 := C p.diag1
  diag2 := C p.diag2
  diag3 := C p.diag3
  diag4 := C p.diag4

/-- The line through the two rows. -/
noncomputable def linePoly (a b : Col → F) : Col → F[X] := fun c => C (a c) + C (b c - a c) * X

theorem value_eval (p : Params F) (e : Col → F[X]) (x : F) (s : Subrel) :
    (s.value F p.const e).eval x = s.value F p (fun c => (e c).eval x) := by
  cases s <;>
    simp [Subrel.value, Params.const, readTerm, writeTerm, record, inRange, Algebra.smul_def, ← C_eq_algebraMap, -map_inv₀]

theorem value_natDegree (p : Params F) (a b : Col → F) (s : Subrel) :
    (s.value F p.const (linePoly a b)).natDegree ≤ s.len - 1 := by
  cases s <;>
    simp only [Subrel.value, Params.const, readTerm, writeTerm, record, inRange, linePoly, Subrel.len] <;> compute_degree <;> norm_num

end Verif.Honk
