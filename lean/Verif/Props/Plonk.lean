import Verif.Plonk.DomainLemmas
import Verif.Props.Demo
import Mathlib.Tactic.NormNum.Prime
import Mathlib.Tactic.IntervalCases

/-!
# Properties: the PLONK prover and verifier
-/

namespace Verif.Props

open Verif.Plonk
open Groth16 (FftParams)

section

variable {p : Nat} [Fact p.Prime] {G H T : Type} [AddCommGroup G] [Module (ZMod p) G] [AddCommGroup H] [Module (ZMod p) H]
  [AddCommGroup T] [Module (ZMod p) T] [DecidableEq T] {pr : FftParams (ZMod p)} {key : Zkey (ZMod p) G H} {w w4 τ : ZMod p}
  {g₁ : G} {g₂ : H} {inputs wit z : List (ZMod p)}

/-- C96: completeness of the prover's algorithm on values in the clear, for any hash function and any blinding factors: every
proof that it returns for a true statement is accepted. -/
theorem C96_accepted (h : Statement pr key w w4 τ g₁ g₂ inputs wit z) (hash : List (ZMod p ⊕ G) → ZMod p)
    (e : G →ₗ[ZMod p] H →ₗ[ZMod p] T) (x : ZMod p) {b : List (ZMod p)} (hb : b.length = 11) {proof : Proof (ZMod p) G}
    (hproof : proveReference hash pr key (x :: inputs) wit b = .ok proof) :
    verify hash pr (fun P Q => e P Q) g₁ g₂ key.vk proof inputs = .ok () :=
  h.verify hash x hb e hproof

/-- C96: it returns a proof unless a challenge is exceptional.  What is hashed is fixed before the hash function is. -/
theorem C96_returns (h : Statement pr key w w4 τ g₁ g₂ inputs wit z) (x : ZMod p) {b : List (ZMod p)} (hb : b.length = 11) :
    ∃ q : Queries (ZMod p) G, ∀ hash, ¬ q.Exceptional key w z hash →
      ∃ proof, proveReference hash pr key (x :: inputs) wit b = .ok proof :=
  h.ok x hb

end

end Verif.Props

/-! ## A concrete case -/

namespace Verif.Demo

open PartyID Verif.Groth16 Verif.Plonk

instance prime97 : Fact (Nat.Prime 97) := ⟨by norm_num⟩

abbrev F97 := ZMod 97

/-- `96 = 2 ^ 5 * 3`; `28` has order `32`. -/
def params97 : FftParams F97 where
  modulus := 97
  twoAdicity := 5
  trace := 3
  generator := 5
  domainGen k := 28 ^ 2 ^ (5 - k)

theorem primitive97 : IsPrimitiveRoot (28 : F97) (2 ^ 5) :=
  IsPrimitiveRoot.mk_of_lt _ (by norm_num) (by decide) fun l h0 h => by
    have : l < 32 := h
    interval_cases l <;> decide

theorem params97_valid : params97.Valid where
  odd := rfl
  modulus := rfl
  order := rfl
  trace := rfl
  domainGen k hk := squares_primitive primitive97 hk
  generator k hk := by
    have : k ≤ 5 := hk
    interval_cases k <;> decide
  generator_ne := by decide

/-- A polynomial with its values on the extended domain. -/
def poly97 (l : List F97) : Poly F97 := ⟨l, (List.range 32).map fun i => polyValue l (28 ^ i)⟩

/-- The commitment to a polynomial for the secret `13`. -/
def commit97 (l : List F97) : F97 := polyValue l 13

/-- The circuit: `y` is public, `x * x = y`, and `v = 2 x + 0 y` is a signal of the second kind with the gate `v - 2 x = 0`.
Eight gates, of which three are used. -/
def key97 : Zkey F97 F97 F97 where
  vk :=
    { nPublic := 1
      power := 3
      k1 := 2
      k2 := 5
      qm := commit97 [85, 18, 70, 89, 12, 79, 27, 8]
      ql := commit97 [73, 58, 0, 15, 73, 58, 0, 15]
      qr := commit97 [24, 54, 73, 43, 24, 54, 73, 43]
      qo := commit97 [12, 79, 27, 8, 85, 18, 70, 89]
      qc := commit97 []
      s1 := commit97 [37, 78, 91, 52, 37, 76, 91, 52]
      s2 := commit97 [81, 62, 13, 93, 53, 2, 47, 42]
      s3 := commit97 [76, 15, 42, 83, 81, 12, 18, 74]
      x2 := 13 }
  nPublic := 1
  nVars := 4
  nAdditions := 1
  domainSize := 8
  pow := 3
  additions := [⟨2, 1, 2, 0⟩]
  mapA := [1, 2, 3]
  mapB := [0, 2, 2]
  mapC := [0, 1, 0]
  qm := poly97 [85, 18, 70, 89, 12, 79, 27, 8]
  ql := poly97 [73, 58, 0, 15, 73, 58, 0, 15]
  qr := poly97 [24, 54, 73, 43, 24, 54, 73, 43]
  qo := poly97 [12, 79, 27, 8, 85, 18, 70, 89]
  qc := poly97 []
  s1 := poly97 [37, 78, 91, 52, 37, 76, 91, 52]
  s2 := poly97 [81, 62, 13, 93, 53, 2, 47, 42]
  s3 := poly97 [76, 15, 42, 83, 81, 12, 18, 74]
  lagrange := [poly97 [85, 85, 85, 85, 85, 85, 85, 85]]
  pTau := (List.range 14).map fun i => 13 ^ i

theorem poly97_valid {l : List F97} (h : l.length ≤ 8) : (poly97 l).Valid 8 28 := ⟨h, rfl⟩

theorem key97_wf : key97.WellFormed where
  size := rfl
  large := by decide
  vkPower := rfl
  vkPublic := rfl
  hasPublic := by decide
  vars := by decide
  lengthA := by decide
  lengthB := by decide
  lengthC := by decide
  publicA := by
    intro i hi
    obtain rfl : i = 0 := by simpa [key97] using hi
    rfl
  mapA := by decide
  mapB := by decide
  mapC := by decide
  additions := rfl
  earlier := by
    intro j x hj
    match j with
    | 0 =>
      obtain rfl : _ = x := by simpa [key97] using hj
      decide
    | j + 1 => simp [key97] at hj

/-- The next wire with the same signal. -/
def next97 : Column × Fin 8 → Column × Fin 8
  | (.a, 0) => (.c, 1)
  | (.c, 1) => (.a, 0)
  | (.a, 1) => (.b, 1)
  | (.b, 1) => (.b, 2)
  | (.b, 2) => (.a, 1)
  | (.a, 2) => (.a, 2)
  | (.c, 0) => (.c, 2)
  | (.c, 7) => (.b, 0)
  | (.a, i) => (.b, i)
  | (.b, i) => (.c, i)
  | (.c, i) => (.a, i + 1)

/-- The previous wire with the same signal. -/
def prev97 : Column × Fin 8 → Column × Fin 8
  | (.c, 1) => (.a, 0)
  | (.a, 0) => (.c, 1)
  | (.b, 1) => (.a, 1)
  | (.b, 2) => (.b, 1)
  | (.a, 1) => (.b, 2)
  | (.a, 2) => (.a, 2)
  | (.c, 2) => (.c, 0)
  | (.b, 0) => (.c, 7)
  | (.b, i) => (.a, i)
  | (.c, i) => (.b, i)
  | (.a, i) => (.c, i - 1)

/-- The wires with the same signal are permuted cyclically. -/
def perm97 : Equiv.Perm (Column × Fin 8) where
  toFun := next97
  invFun := prev97
  left_inv := by
    have h : ∀ (x : Column) (i : Fin 8), prev97 (next97 (x, i)) = (x, i) := by intro x; cases x <;> decide
    exact fun x => h x.1 x.2
  right_inv := by
    have h : ∀ (x : Column) (i : Fin 8), next97 (prev97 (x, i)) = (x, i) := by intro x; cases x <;> decide
    exact fun x => h x.1 x.2

theorem key97_polys : key97.PolysValid 64 28 where
  qm := poly97_valid (by decide)
  ql := poly97_valid (by decide)
  qr := poly97_valid (by decide)
  qo := poly97_valid (by decide)
  qc := poly97_valid (by decide)
  sigma x := by cases x <;> exact poly97_valid (by decide)
  lagrange := rfl
  lagrangePoly := by
    intro j l hj
    match j with
    | 0 =>
      obtain rfl : _ = l := by simpa [key97] using hj
      refine ⟨poly97_valid (by decide), fun i hi => ?_⟩
      have : i < 8 := hi
      interval_cases i <;> decide
    | j + 1 => simp [key97] at hj
  permutation := by
    refine ⟨perm97, ?_⟩
    rintro ⟨x, i⟩
    have h : ∀ (x : Column) (i : Fin 8),
        polyValue (key97.sigma x).coeffs (64 ^ i.1) = key97.label 64 (perm97 (x, i)).1 (perm97 (x, i)).2.1 ∧
        key97.signal (perm97 (x, i)).1 (perm97 (x, i)).2.1 = key97.signal x i.1 := by
      intro x
      cases x <;> decide
    exact h x i

theorem key97_setup : key97.SetupValid 13 1 1 where
  length := by decide
  powers := by
    intro i P h
    obtain ⟨hi, h⟩ := List.getElem?_eq_some_iff.1 h
    simp [key97] at h
    rw [← h, smul_eq_mul, mul_one]
  qm := (mul_one _).symm
  ql := (mul_one _).symm
  qr := (mul_one _).symm
  qo := (mul_one _).symm
  qc := (mul_one _).symm
  s1 := (mul_one _).symm
  s2 := (mul_one _).symm
  s3 := (mul_one _).symm
  x2 := (mul_one _).symm

/-- `6 * 6 = 36` -/
theorem statement97 : Plonk.Statement params97 key97 64 28 13 1 1 [36] [6] [0, 36, 6, 12] where
  valid := params97_valid
  roots := ⟨5, [1, 96, 22, 64, 8, 28], by decide, rfl, rfl⟩
  wf := key97_wf
  polys := key97_polys
  setup := key97_setup
  fits := ⟨rfl, rfl⟩
  assignment := by
    refine ⟨⟨[12], rfl, rfl⟩, ?_⟩
    intro j x hj
    match j with
    | 0 =>
      obtain rfl : _ = x := by simpa [key97] using hj
      decide
    | j + 1 => simp [key97] at hj
  satisfied := by
    intro i hi
    have : i < 8 := hi
    interval_cases i <;> decide

/-- A function in the place of the hash function. -/
def hash97 (l : List (F97 ⊕ F97)) : F97 := if l = [.inl 2] then 5 else 2

/-- No challenge is exceptional for it, whatever is hashed. -/
theorem usual97 (q : Queries F97 F97) : ¬ q.Exceptional key97 64 [0, 36, 6, 12] hash97 := by
  have h : ∀ l, hash97 l = 5 ∧ hash97 [.inl (hash97 l)] = 2 ∨ hash97 l = 2 ∧ hash97 [.inl (hash97 l)] = 5 := by
    intro l
    by_cases h : l = [.inl 2]
    · subst h; exact .inl ⟨by decide, by decide⟩
    · right
      have : hash97 l = 2 := if_neg h
      rw [this]
      exact ⟨rfl, by decide⟩
  have h' : ∀ l, hash97 l ≠ 0 ∧ hash97 l ^ 8 ≠ 1 := by
    intro l
    rcases h l with h | h <;> rw [h.1] <;> decide
  rintro (⟨x, i, hi, h0⟩ | h0 | h0)
  · have : i < 8 := hi
    revert h0
    rcases h q.first with h | h <;> rw [h.2, h.1] <;> cases x <;> interval_cases i <;> decide
  · exact (h' _).1 h0
  · exact (h' _).2 h0

/-- A pairing with values in the field. -/
noncomputable abbrev pairing97 : F97 →ₗ[F97] F97 →ₗ[F97] F97 := LinearMap.mul F97 F97

end Verif.Demo

namespace Verif.Props

open Verif.Plonk Verif.Demo

example : ∃ proof, proveReference hash97 params97 key97 [1, 36] [6] [1, 2, 3, 4, 5, 6, 7, 8, 9, 10, 11] = .ok proof ∧
    verify hash97 params97 (fun P Q => pairing97 P Q) 1 1 key97.vk proof [36] = .ok () :=
  (C96_returns statement97 1 rfl).elim fun q h => (h hash97 (usual97 q)).imp
    fun _ h => ⟨h, C96_accepted statement97 hash97 pairing97 1 rfl h⟩

end Verif.Props
