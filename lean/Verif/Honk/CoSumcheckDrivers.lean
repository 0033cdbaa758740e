import Verif.Honk.CoSumcheckRounds
import Verif.Honk.VerifierLemmas
import Verif.Groth16.Drivers
import Verif.Plonk.ShamirSim

/-!
# Lemmas: the drivers of the collaborative sumcheck
-/

namespace Verif.Honk

open Plonk (Linear)

section

variable {F : Type} [Field F] [DecidableEq F]

/-! ## Rep3 -/

theorem sumSim_rep3 {R M : Type} [Sample R F] [SampleVec R F] [Codec M (List F)] {ty : A2BType} :
    SumSim (M := M) (Corr (R := R) ty) (fun i => rep3Sum i) (IsShare (G := F)) (IsAdditive (G := F)) where
  linear := ⟨IsShare.zero, fun _ _ _ _ h h' => h.add h', fun _ _ _ _ h h' => h.sub h', fun _ _ h => h.neg,
    Plonk.linear_rep3.smul, fun _ _ k h => h.addPublic k, fun k => by
      have := (IsShare.zero (G := F)).addPublic k
      rw [zero_add] at this
      exact this⟩
  hzero := by simp [IsAdditive]
  hadd h h' := by
    simp only [IsAdditive] at *
    rw [← h, ← h']; ring
  hmul k h := by
    simp only [IsAdditive] at *
    rw [← h]; ring
  toHalf {x v} k h := by
    obtain ⟨-, h⟩ := h
    simp only [IsAdditive, rep3Sum]
    rw [← h]; ring
  addPubHalf k h := by
    simp only [IsAdditive, rep3Sum] at *
    simp
    rw [← h]; ring
  localMulMany ha hb hl st hst := (Rep3.spec_localMulVec ha hb hl hst)
  mulMany ha hb _ st hst := Rep3.spec_mulVec ha hb hst
  reshare := by
    rintro s v ⟨x, rfl, hx⟩ st hst
    refine Rep3.spec_reshareVec.mono ?_
    rintro r s ⟨rfl, rfl⟩
    exact ⟨Rep3.isShares_replicate hx, hst⟩
  openMany ha st hst := (Rep3.spec_openVec ha).mono fun r s h => ⟨h.1, h.2 ▸ hst⟩

/-! ## Shamir -/

theorem sumSim_shamir {n t : Nat} {R M : Type} [Sample R F] [Codec M (List F)] :
    SumSim (M := M) (Shamir.ShCorr (n := n) (R := R) (F := F) t) (fun _ => shamirSum) (IsShamir F t) (IsShamir F (2 * t)) where
  linear := ⟨IsShamir.const t 0, fun _ _ _ _ h h' => h.add h', fun _ _ _ _ h h' => h.sub h', Plonk.linear_shamir.neg,
    Plonk.linear_shamir.smul, fun _ _ k h => h.add (IsShamir.const t k), fun k => by
      have := (IsShamir.const (n := n) (F := F) t 0).add (IsShamir.const t k)
      rw [zero_add] at this
      simpa [shamirSum, Shamir.addPublic] using this⟩
  hzero := IsShamir.const _ 0
  hadd h h' := h.add h'
  hmul k h := by
    have := h.smul k
    simpa only [smul_eq_mul, mul_comm] using this
  toHalf k h := (h.mono (by omega)).smul k
  addPubHalf k h := h.add (IsShamir.const _ k)
  localMulMany := by
    intro s t' v u ha hb hl
    have := Shamir.isShamirs_mul ha hb
    rw [← Nat.two_mul] at this
    have e : ∀ i, Shamir.localMulVec (s i) (t' i) = some (List.zipWith (· * ·) (s i) (t' i)) := fun i => by
      rw [Shamir.localMulVec, if_pos]
      rw [Cols.length ha i, Cols.length hb i, hl]
    simp only [shamirSum, e]
    exact IS.pure this
  mulMany ha hb _ st hst := Shamir.spec_mulVec hst ha hb
  reshare h st hst := Shamir.spec_degreeReduceMany hst h
  openMany h st hst := (Shamir.spec_openVec hst h).mono fun r s hr => ⟨hr.1, hr.2 ▸ hst⟩

end

end Verif.Honk
