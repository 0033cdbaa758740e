import Verif.Honk.ShpleminiVerify
import Verif.Props.Honk
import Mathlib.Algebra.Algebra.Bilinear

/-!
# Opening the columns of UltraHonk (C117)
-/

namespace Verif.Honk

section

variable {F G H T : Type} [Field F] [DecidableEq F] [AddCommGroup G] [Module F G] [AddCommGroup H] [Module F H] [AddCommGroup T] [Module F T]
  [DecidableEq T]

/-- The prover with the columns of a table. -/
def openTable (ch : PcsChallenges F G) (crs : List G) (logN : Nat) (us : List F) (table : Col → Nat → F) : Except Err (PcsProof F G) :=
  shpleminiProve plainPcs ch crs logN us (Col.precomputed.map (columns (2 ^ logN) table)) (Col.witness.map (columns (2 ^ logN) table))
    (Col.toBeShifted.map (columns (2 ^ logN) table))

/-- The verifier accepts the proof of the prover for the values of the multilinear extensions of the columns, and of their shifts. -/
theorem C117_complete {τ : F} {gen : G} {g2 g2x : H} {crs : List G} (hsrs : Srs τ gen g2 g2x crs) (e : G →ₗ[F] H →ₗ[F] T)
    (ch : PcsChallenges F G) (logN : Nat) (us : List F) (h2 : 2 ≤ logN) (hD : logN ≤ us.length) (hlen : 2 ^ logN ≤ crs.length)
    (table : Col → Nat → F) (hshift : Shifted (2 ^ logN) table) (proof : PcsProof F G) (h : openTable ch crs logN us table = .ok proof)
    (hgood : GoodPoints us (ch.r proof.folds) (ch.z proof.folds proof.evals proof.q)) :
    shpleminiVerify e gen g2 g2x ch us (fun c => commitment crs (2 ^ logN) (table c)) (fun c => extension (pad (2 ^ logN) (table c)) us)
      proof = .ok true := by
  obtain ⟨folds, h1, -⟩ | ⟨proof', h1, h3⟩ := opening_run (ch := ch) (table := table) (e := e) hsrs h2 hD hlen
  · rw [openTable, h1] at h
    cases h
  · rw [openTable, h1] at h
    cases h
    exact h3 hshift hgood

/-- The prover fails only if the challenge `r` is zero. -/
theorem C117_succeeds {τ : F} {gen : G} {g2 g2x : H} {crs : List G} (hsrs : Srs τ gen g2 g2x crs)
    (ch : PcsChallenges F G) (logN : Nat) (us : List F) (h2 : 2 ≤ logN) (hD : logN ≤ us.length) (hlen : 2 ^ logN ≤ crs.length)
    (table : Col → Nat → F) (hr : ∀ folds, ch.r folds ≠ 0) : ∃ proof, openTable ch crs logN us table = .ok proof := by
  classical
  obtain ⟨folds, -, h⟩ | ⟨proof, h1, -⟩ := opening_run (ch := ch) (table := table) (e := (0 : G →ₗ[F] H →ₗ[F] F)) hsrs h2 hD hlen
  · exact absurd h (hr folds)
  · exact ⟨proof, h1⟩

/-- After the sumcheck, the prover opens the columns at its challenges, and the verifier accepts the values that the sumcheck claims. -/
theorem C117_decider (hd8 : Distinct F 8) {τ : F} {gen : G} {g2 g2x : H} {crs : List G} (hsrs : Srs τ gen g2 g2x crs) (e : G →ₗ[F] H →ₗ[F] T)
    (p : Params F) (α β : F) (sch : List (Univariate F 8) → F) (d D : Nat) (hd : 2 ≤ d) (hD : d ≤ D) (hlen : 2 ^ d ≤ crs.length)
    (table : Col → Nat → F) (hshift : Shifted (2 ^ d) table) (s : SumcheckProof F 8)
    (hs : sumcheckProve p (alphaPowers α) (gateChallenges β D) sch (2 ^ d) D (columns (2 ^ d) table) = .ok s)
    (ch : PcsChallenges F G) (proof : PcsProof F G) (h : openTable ch crs d (challenges sch s.univariates) table = .ok proof)
    (hgood : GoodPoints (challenges sch s.univariates) (ch.r proof.folds) (ch.z proof.folds proof.evals proof.q)) :
    shpleminiVerify e gen g2 g2x ch (challenges sch s.univariates) (fun c => commitment crs (2 ^ d) (table c)) s.evaluations proof =
      .ok true := by
  obtain ⟨s', h1, h2, h3⟩ := C103_evaluations hd8 p α β sch d D hd hD table
  rw [hs] at h1
  cases h1
  rw [show s.evaluations = fun c => extension (pad (2 ^ d) (table c)) (challenges sch s.univariates) from funext h3]
  exact C117_complete hsrs e ch d _ hd (by simpa [challenges, h2] using hD) hlen table hshift proof h hgood

end

/-! ## Concrete cases -/

namespace PcsDemo

open Demo

/-- The powers of five. -/
def crs97 : List H97 := (List.range 4).map fun i => 5 ^ i

theorem srs97 : Srs (5 : H97) (1 : H97) (1 : H97) (5 : H97) crs97 where
  powers i P h := by
    have hi : i < 4 := by
      by_contra hi
      rw [List.getElem?_eq_none (by simp [crs97]; omega)] at h
      cases h
    interval_cases i <;> · cases h; decide
  second := by decide

/-- Challenges that depend on what was sent. -/
def ch97 : PcsChallenges H97 H97 where
  rho := 7
  r folds := folds.sum * 0 + 2
  nu folds evals := folds.sum + evals.sum
  z folds evals q := q * 0 + 20 + evals.sum * 0

/-- The product example with the columns shifted. -/
theorem shifted97 : Shifted (2 ^ 2) table97 where
  next := by
    intro p hp i hi
    have hi' : i < 4 := hi
    simp only [List.mem_cons, List.not_mem_nil, or_false] at hp
    rcases hp with rfl | rfl | rfl | rfl | rfl <;> interval_cases i <;> decide +kernel
  first := by
    intro c hc
    simp only [List.mem_cons, List.not_mem_nil, or_false] at hc
    rcases hc with rfl | rfl | rfl | rfl | rfl <;> decide +kernel

theorem good97 : GoodPoints [10, 11, 12] (2 : H97) 20 where
  fold := by intro j hj; have hj' : j < 3 := hj; interval_cases j <;> decide
  pos := by intro j hj; have hj' : j < 3 := hj; interval_cases j <;> decide
  neg := by intro j hj; have hj' : j < 3 := hj; interval_cases j <;> decide

/-- The run of the prover and the verifier, with values of the verifier. -/
def pcsRun97 (claimed : Col → H97) : Option Bool :=
  match openTable ch97 crs97 2 [10, 11, 12] table97 with
  | .error _ => none
  | .ok proof =>
    match shpleminiVerify (LinearMap.mul H97 H97) 1 1 5 ch97 [10, 11, 12] (fun c => commitment crs97 4 (table97 c)) claimed proof with
    | .error _ => none
    | .ok b => some b

/-- The proof for four rows and three variables is accepted. -/
example : ∃ proof, openTable ch97 crs97 2 [10, 11, 12] table97 = .ok proof ∧
    shpleminiVerify (LinearMap.mul H97 H97) 1 1 5 ch97 [10, 11, 12] (fun c => commitment crs97 (2 ^ 2) (table97 c))
      (fun c => extension (pad (2 ^ 2) (table97 c)) [10, 11, 12]) proof = .ok true := by
  obtain ⟨proof, h⟩ := C117_succeeds srs97 ch97 2 [10, 11, 12] (by omega) (by simp) (by simp [crs97]) table97 (by
    intro folds
    simp only [ch97, mul_zero, zero_add]
    decide)
  refine ⟨proof, h, C117_complete srs97 _ ch97 2 _ (by omega) (by simp) (by simp [crs97]) table97 shifted97 proof h ?_⟩
  simpa [ch97] using good97

/-- A wrong value of one column is rejected. -/
theorem C117_wrong : pcsRun97 (fun c => if c = .wr then extension (pad 4 (table97 c)) [10, 11, 12] + 1 else
    extension (pad 4 (table97 c)) [10, 11, 12]) = some false := by decide +kernel

end PcsDemo

end Verif.Honk
