import Verif.Plonk.SoundLemmas
import Verif.Props.Plonk

/-!
# Properties: the PLONK verifier only accepts true statements
-/

namespace Verif.Props

open Verif.Plonk
open Groth16 (FftParams)

section

variable {p : Nat} [Fact p.Prime] {G H T : Type} [AddCommGroup G] [Module (ZMod p) G] [AddCommGroup H] [Module (ZMod p) H]
  [AddCommGroup T] [Module (ZMod p) T] [DecidableEq T] {pr : FftParams (ZMod p)} {key : Zkey (ZMod p) G H} {w w4 τ : ZMod p}
  {g₁ : G} {g₂ : H}

/-- C100: soundness.  For each circuit and public inputs there are small sets of lucky challenges, such that whenever the verifier
accepts a proof, for any hash function, then a challenge was lucky or the wires in the prover's first message satisfy the circuit
with these public inputs.  The prover is algebraic: `s` are the polynomials whose commitments are in the proof. -/
theorem C100_sound (hpr : pr.Valid) {c : Circuit (ZMod p)} {σ : Equiv.Perm c.Wire} {d : Nat}
    (hr : ∃ q roots, Groth16.rootsOfUnity pr = some (q, roots) ∧ roots[c.power]? = some w) (hc : c.Valid w σ d) (hd : 1 ≤ d)
    (pub : List (ZMod p)) :
    ∃ L : Lucky (ZMod p) c.size d, ∀ (τ : ZMod p) (g₁ : G) (g₂ : H) (e : G →ₗ[ZMod p] H →ₗ[ZMod p] T), e g₁ g₂ ≠ 0 →
      ∀ (hash : List (ZMod p ⊕ G) → ZMod p) (s : Sent5 (ZMod p)), s.Hashed hash (c.vk τ g₁ g₂) (s.proof τ g₁) pub →
      verify hash pr (fun P Q => e P Q) g₁ g₂ (c.vk τ g₁ g₂) (s.proof τ g₁) pub = .ok () →
      pub.length = c.nPublic ∧ (L.Hit s (hash [.inr (s.proof τ g₁).wxi, .inr (s.proof τ g₁).wxiw]) τ ∨
        c.Holds w σ pub (s.wires c w)) :=
  sound hpr hr hc hd pub

/-- C100: the verification key of a proving key from the setup is the one of its circuit. -/
theorem C100_key (hw : key.WellFormed) (hs : key.SetupValid τ g₁ g₂) : key.vk = key.circuit.vk τ g₁ g₂ :=
  key_vk hw hs

omit [AddCommGroup G] [Module (ZMod p) G] [AddCommGroup H] [Module (ZMod p) H] in
/-- C100: the circuit of a proving key is well formed. -/
theorem C100_circuit {σ : Equiv.Perm key.circuit.Wire} (hw : key.WellFormed) (hp : key.PolysValid w w4) (hc : key.Complete w σ) :
    key.circuit.Valid w σ key.domainSize :=
  key_valid hw hp hc

omit [AddCommGroup G] [Module (ZMod p) G] [AddCommGroup H] [Module (ZMod p) H] in
/-- C100: wires that satisfy the circuit of a proving key carry the values of signals that satisfy all gates and that have the
public inputs in their place. -/
theorem C100_signals {σ : Equiv.Perm key.circuit.Wire} (hw : key.WellFormed) (hc : key.Complete w σ) {pub : List (ZMod p)}
    {x : key.circuit.Wire → ZMod p} (h : key.circuit.Holds w σ pub x) :
    ∃ z : List (ZMod p), z.length = key.nVars ∧ (∀ j < key.nPublic, z.getD (j + 1) 0 = pub.getD j 0) ∧
      (∀ y : key.circuit.Wire, x y = z.getD (key.signal y.1 y.2.1) 0) ∧ key.Satisfied w z :=
  key_assignment hw hc h

end

end Verif.Props

/-! ## A concrete case -/

namespace Verif.Demo

open Verif.Plonk Verif.Groth16 Polynomial

theorem rep97 (x : Column) (i : Fin 8) : ∃ k : Fin 18, next97^[k.1] ([(.b, 0), (.a, 0), (.a, 1), (.a, 2)].getD (key97.signal x i) (.a, 0))
    = (x, i) := by
  revert i
  cases x <;> decide

theorem key97_complete : key97.Complete 64 perm97 where
  names := by
    have h : ∀ (x y : Column) (i j : Fin 8), key97.circuit.label 64 (x, i) = key97.circuit.label 64 (y, j) → (x, i) = (y, j) := by
      intro x y
      cases x <;> cases y <;> decide
    exact fun x y => h x.1 y.1 x.2 y.2
  encodes := by
    have h : ∀ (x : Column) (i : Fin 8),
        polyValue (key97.sigma x).coeffs (64 ^ i.1) = key97.circuit.label 64 (perm97 (x, i)) := by
      intro x
      cases x <;> decide
    exact fun x => h x.1 x.2
  cycles := by
    have hstep : ∀ (x : Column) (i : Fin 8), key97.signal (next97 (x, i)).1 (next97 (x, i)).2.1 = key97.signal x i.1 := by
      intro x
      cases x <;> decide
    have hpow : ∀ (k : Nat) (x : Column × Fin 8), (perm97 ^ k) x = next97^[k] x := by
      intro k
      induction k with
      | zero => intro x; rfl
      | succ k ih => intro x; rw [pow_succ, Equiv.Perm.mul_apply, ih, Function.iterate_succ_apply]; rfl
    have hiter : ∀ (k : Nat) (x : Column × Fin 8), key97.signal ((perm97 ^ k) x).1 ((perm97 ^ k) x).2.1 = key97.signal x.1 x.2.1 := by
      intro k
      induction k with
      | zero => intro x; rfl
      | succ k ih => intro x; rw [pow_succ, Equiv.Perm.mul_apply, ih]; exact hstep x.1 x.2
    intro x y
    constructor
    · intro h
      obtain ⟨k, hk⟩ := rep97 x.1 x.2
      obtain ⟨l, hl⟩ := rep97 y.1 y.2
      rw [← h, ← hpow] at hl
      rw [← hpow] at hk
      have h1 : Equiv.Perm.SameCycle perm97 ([(.b, 0), (.a, 0), (.a, 1), (.a, 2)].getD (key97.signal x.1 x.2) (.a, 0)) x :=
        ⟨k.1, by rw [zpow_natCast]; exact hk⟩
      have h2 : Equiv.Perm.SameCycle perm97 ([(.b, 0), (.a, 0), (.a, 1), (.a, 2)].getD (key97.signal x.1 x.2) (.a, 0)) y :=
        ⟨l.1, by rw [zpow_natCast]; exact hl⟩
      exact h1.symm.trans h2
    · rintro ⟨k, rfl⟩
      cases k with
      | ofNat k => exact (hiter k x).symm
      | negSucc k =>
        have := hiter (k + 1) (((perm97 ^ (k + 1))⁻¹) x)
        have e : (perm97 ^ (k + 1)) (((perm97 ^ (k + 1))⁻¹) x) = x := (perm97 ^ (k + 1)).apply_symm_apply x
        exact (congrArg (fun y : Column × Fin 8 => key97.signal y.1 y.2.1) e).symm.trans this
  publicGates := by
    intro i hi
    obtain rfl : i = 0 := by simpa [key97] using hi
    decide

/-- Constant polynomials with the commitments of a proof. -/
noncomputable def sent97 (hash : List (F97 ⊕ F97) → F97) (vk : Vk F97 F97 F97) (proof : Plonk.Proof F97 F97) (pub : List F97) :
    Sent5 F97 :=
  let ch := verifierChallenges hash vk proof pub
  { a := C proof.a, b := C proof.b, c := C proof.c, β := ch.β, γ := ch.γ, z := C proof.z, α := ch.α, t1 := C proof.t1,
    t2 := C proof.t2, t3 := C proof.t3, ξ := ch.ξ,
    evals := ⟨proof.evalA, proof.evalB, proof.evalC, proof.evalS1, proof.evalS2, proof.evalZw⟩, v := ch.v, w := C proof.wxi,
    ww := C proof.wxiw }

theorem sent97_proof (hash : List (F97 ⊕ F97) → F97) (vk : Vk F97 F97 F97) (proof : Plonk.Proof F97 F97) (pub : List F97) :
    (sent97 hash vk proof pub).proof 13 1 = proof := by
  simp [sent97, Sent5.proof]

end Verif.Demo

namespace Verif.Props

open Verif.Plonk Verif.Demo

/-- The proof of the concrete case of C96 meets the hypotheses. -/
example : ∃ (L : Lucky F97 8 8) (s : Sent5 F97),
    verify hash97 params97 (fun P Q => pairing97 P Q) 1 1 (key97.circuit.vk 13 1 1) (s.proof 13 1) [36] = .ok () ∧
    (L.Hit s (hash97 [.inr (s.proof 13 1).wxi, .inr (s.proof 13 1).wxiw]) 13 ∨
      ∃ z : List F97, z.length = 4 ∧ (∀ j < 1, z.getD (j + 1) 0 = [36].getD j 0) ∧ key97.Satisfied 64 z) := by
  obtain ⟨q, hq⟩ := C96_returns statement97 1 (b := [1, 2, 3, 4, 5, 6, 7, 8, 9, 10, 11]) rfl
  obtain ⟨proof, hproof⟩ := hq hash97 (usual97 q)
  have h := C96_accepted statement97 hash97 pairing97 1 rfl hproof
  obtain ⟨L, hL⟩ := C100_sound (G := F97) (H := F97) (T := F97) params97_valid
    ⟨5, [1, 96, 22, 64, 8, 28], by decide, rfl⟩ (C100_circuit key97_wf key97_polys key97_complete) (by decide) [36]
  rw [C100_key key97_wf key97_setup] at h
  refine ⟨L, sent97 hash97 (key97.circuit.vk 13 1 1) proof [36], by rw [sent97_proof]; exact h, ?_⟩
  have := hL 13 1 1 pairing97 (by simp) hash97 (sent97 hash97 (key97.circuit.vk 13 1 1) proof [36])
    (by rw [sent97_proof]; exact ⟨rfl, rfl, rfl, rfl, rfl⟩) (by rw [sent97_proof]; exact h)
  refine this.2.imp_right fun h => ?_
  obtain ⟨z, z1, z2, _, z3⟩ := C100_signals key97_wf key97_complete h
  exact ⟨z, z1, z2, z3⟩

end Verif.Props
