import Verif.Groth16.Drivers
import Verif.Groth16.RootLemmas
import Verif.Groth16.KeyLemmas
import Verif.Bridge.BridgeLemmas
import Verif.Props.Shamir

/-!
# Properties C76 to C79: the Groth16 prover

`Verif/Spec/Groth16.lean` defines constraint systems, the polynomials that belong to them, trusted keys (`IsKey`,
`IsCircomKey`, `IsLibsnarkKey`), the Groth16 proof for an assignment (`proofFor`) and the check of the verifier
(`Verifies`).
-/

namespace Verif.Props

open PartyID Verif.Groth16 Polynomial
open Verif.Shamir (ShamirState ShCorr)

variable {p : Nat} [Fact p.Prime] {pr : FftParams (ZMod p)}

/-! ## C76: roots of unity and witness maps -/

/-- C76: the search for a quadratic non-residue ends, and the table has a primitive `2 ^ k`-th root of unity at every
position `k`, each the square of the next. -/
theorem C76_roots_of_unity (h : pr.Valid) : ∃ q roots, Groth16.rootsOfUnity pr = some (q, roots) ∧ ¬ IsSquare q ∧
    roots.length = pr.twoAdicity + 1 ∧
    (∀ k ≤ pr.twoAdicity, ∃ r, roots[k]? = some r ∧ IsPrimitiveRoot r (2 ^ k)) ∧
    (∀ k < pr.twoAdicity, ∃ r, roots[k + 1]? = some r ∧ roots[k]? = some (r ^ 2)) := by
  obtain ⟨q, h1, h2, h3⟩ := find_terminates h.modulus h.odd
  have hz := trace_primitive h.odd h2 h3 h.order h.trace
  refine ⟨q, _, by simp only [Groth16.rootsOfUnity, h1]; rfl, h3, by simp [squares_length], fun k hk => ?_, fun k hk => ?_⟩
  · exact ⟨_, squares_reverse_get _ _ hk, squares_primitive hz hk⟩
  · refine ⟨_, squares_reverse_get _ _ hk, ?_⟩
    have e : pr.twoAdicity - k = pr.twoAdicity - (k + 1) + 1 := by omega
    rw [squares_reverse_get _ _ hk.le, e, pow_succ, pow_mul (q ^ pr.trace)]

/-- C76: for every domain but the largest the prover uses a generator of the domain and, as shift, a generator of the
domain of twice the size; for the largest the shift is the square of a non-residue; beyond, it panics. -/
theorem C76_generators (h : pr.Valid) (k : Nat) :
    (k < pr.twoAdicity → ∃ w v, groth16RootsOfUnity pr k = some (w, v) ∧ v ^ 2 = w ∧
      IsPrimitiveRoot w (2 ^ k) ∧ IsPrimitiveRoot v (2 ^ (k + 1))) ∧
    (k = pr.twoAdicity → ∃ w q, groth16RootsOfUnity pr k = some (w, q ^ 2) ∧ IsPrimitiveRoot w (2 ^ k) ∧
      ¬ IsSquare q) ∧
    (pr.twoAdicity < k → groth16RootsOfUnity pr k = none) := by
  obtain ⟨q, roots, h1, h2, h3, h4, h5⟩ := C76_roots_of_unity h
  refine ⟨fun hk => ?_, fun hk => ?_, fun hk => ?_⟩
  · obtain ⟨v, e1, e2⟩ := h5 k hk
    obtain ⟨w, e3, e4⟩ := h4 k hk.le
    obtain ⟨v', e5, e6⟩ := h4 (k + 1) hk
    rw [e2] at e3
    rw [e1] at e5
    obtain rfl := Option.some.inj e3
    obtain rfl := Option.some.inj e5
    refine ⟨_, v, ?_, rfl, e4, e6⟩
    simp only [groth16RootsOfUnity, h1, Option.bind_eq_bind, Option.bind_some, e2, if_neg (show ¬ pr.twoAdicity = k by
      omega), e1]
  · obtain ⟨w, e3, e4⟩ := h4 k hk.le
    refine ⟨w, q, ?_, e4, h2⟩
    simp only [groth16RootsOfUnity, h1, Option.bind_eq_bind, Option.bind_some, e3, if_pos hk.symm]
  · have e : roots[k]? = none := List.getElem?_eq_none (by omega)
    simp only [groth16RootsOfUnity, h1, Option.bind_eq_bind, Option.bind_some, e, Option.bind_none]

/-- The generator of the domain. -/
theorem generator_primitive (h : pr.Valid) {k : Nat} (hk : k ≤ pr.twoAdicity) {w v : ZMod p}
    (hr : groth16RootsOfUnity pr k = some (w, v)) : IsPrimitiveRoot w (2 ^ k) := by
  obtain ⟨h1, h2, -⟩ := C76_generators h k
  rcases Nat.lt_or_eq_of_le hk with hk | hk
  · obtain ⟨w', v', e, -, h', -⟩ := h1 hk
    rw [hr] at e
    obtain ⟨rfl, -⟩ := Prod.mk.inj (Option.some.inj e)
    exact h'
  · obtain ⟨w', q, e, h', -⟩ := h2 hk
    rw [hr] at e
    obtain ⟨rfl, -⟩ := Prod.mk.inj (Option.some.inj e)
    exact h'

theorem power_ne (h : pr.Valid) (k : Nat) : ((2 ^ k : Nat) : ZMod p) ≠ 0 := by
  have hp := (Fact.out : p.Prime)
  rw [ne_eq, ZMod.natCast_eq_zero_iff]
  intro hd
  have := Nat.le_of_dvd (by norm_num) (hp.dvd_of_dvd_pow hd)
  have := h.odd
  have := hp.two_le
  omega

section

variable {R M J G₁ G₂ GT : Type} [AddCommGroup G₁] [Module (ZMod p) G₁] [AddCommGroup G₂]
  [Module (ZMod p) G₂] [Sample R (ZMod p)] {m : Matrices (ZMod p)} {x : ZMod p} {pub inputs ws : List (ZMod p)}

section Generic

variable {ι S A : Type} [DecidableEq ι] [Fintype ι] [Zero A] [Add A] [SMul (ZMod p) A]
  {d : Driver ι S M (ZMod p) A G₁ G₂} {I : (ι → S) → Prop} {P : (ι → A) → ZMod p → Prop}
  {H : (ι → ZMod p) → ZMod p → Prop} {H₁ : (ι → G₁) → G₁ → Prop} {H₂ : (ι → G₂) → G₂ → Prop}
  {Mul : Nat → (ι → S) → (ι → S) → Prop} {Rand : (ι → S) → ZMod p → (ι → S) → Prop}
  (D : DriverSpec d I P H H₁ H₂ Mul Rand) {wit : ι → List A} {st st₀ st₁ : ι → S} {pk : ProvingKey G₁ G₂}

include D

theorem circom_map (h : pr.Valid) (hm : m.WellFormed) (hp : m.power ≤ pr.twoAdicity)
    (hpub : pub.length = m.numInstance) (hl : ws.length = m.numWitness) (hw : Cols P wit ws) {w v : ZMod p}
    (hr : groth16RootsOfUnity pr m.power = some (w, v)) (hst : I st) :
    Ensures (fun i => circomWitnessMap pr d m pub (wit i)) st (fun r _ => Cols H r (m.circomH w v (pub ++ ws))) :=
  (spec_circomWitnessMap D hm hw hpub hl hr hp (generator_primitive h hp hr) (power_ne h _) hst).ensures.mono
    fun _ _ h => h.1

theorem libsnark_map (h : pr.Valid) (hm : m.WellFormed) (hp : m.power ≤ pr.twoAdicity)
    (hpub : pub.length = m.numInstance) (hl : ws.length = m.numWitness) (hw : Cols P wit ws)
    (hz : m.Satisfied (pub ++ ws)) (hst : I st) :
    Ensures (fun i => libsnarkWitnessMap pr d m pub (wit i)) st (fun r _ =>
      ∃ q, (X ^ 2 ^ m.power - 1) * q = m.qap (pr.domainGen m.power) (pub ++ ws) ∧ Cols H r (coefficients m q)) :=
  (spec_libsnarkWitnessMap D hm hw hpub hl hp (h.domainGen _ hp) (power_ne h _) (h.generator _ hp) h.generator_ne
    hst).ensures.mono fun _ _ h' => ⟨_, qap_quotient (h.domainGen _ hp) hz, by
      have := h'.1
      rwa [libsnarkH_quotient (h.domainGen _ hp) hz (h.generator _ hp) h.generator_ne] at this⟩

theorem circom_prove [Codec J G₁] [Codec J G₂] (h : pr.Valid) (hf : Fits pr m pk inputs ws) (hw : Cols P wit ws)
    {w v : ZMod p} (hr : groth16RootsOfUnity pr m.power = some (w, v)) (h₀ : I st₀) (h₁ : I st₁) :
    EnsuresTwo (M := M) (J := J)
      (fun i => proveInner (circomWitnessMap pr d) d pk m (x :: inputs) (wit i)) st₀ st₁ (fun π _ _ =>
        ∃ r s t t' t₁ t₂, Mul (2 ^ m.power) st₀ t ∧ Mul (2 ^ m.power) t t' ∧ Rand t' r t₁ ∧ Rand t₁ s t₂ ∧
          ∀ i, π i = proofFor pk (1 :: inputs ++ ws) m.numInstance (m.circomH w v (x :: inputs ++ ws)) r s) := by
  have hmap := spec_circomWitnessMap D hf.wf hw (pub := x :: inputs) (by simpa using hf.inputs) hf.witness hr hf.power
    (generator_primitive h hf.power hr) (power_ne h _) h₀
  obtain ⟨n, hn⟩ := (spec_proveInner D (J := J) pk hw hf.inputs hf.witness hmap hf.aQuery hf.bG1Query hf.bG2Query
    h₁).ensures
  refine ⟨n, hn.mono ?_⟩
  rintro π s₀ s₁ ⟨⟨r, s, t, t₁, t₂, ⟨t', hm₁, hm₂⟩, hR, hS, rfl⟩, -⟩
  exact ⟨r, s, t', t, t₁, t₂, hm₁, hm₂, hR, hS, fun _ => rfl⟩

theorem libsnark_prove [Codec J G₁] [Codec J G₂] (h : pr.Valid) (hf : Fits pr m pk inputs ws) (hw : Cols P wit ws)
    (h₀ : I st₀) (h₁ : I st₁) :
    EnsuresTwo (M := M) (J := J)
      (fun i => proveInner (libsnarkWitnessMap pr d) d pk m (x :: inputs) (wit i)) st₀ st₁ (fun π _ _ =>
        ∃ r s t t₁ t₂, Mul (2 ^ m.power) st₀ t ∧ Rand t r t₁ ∧ Rand t₁ s t₂ ∧
          ∀ i, π i = proofFor pk (1 :: inputs ++ ws) m.numInstance
            (m.libsnarkH (pr.domainGen m.power) pr.generator (x :: inputs ++ ws)) r s) := by
  have hmap := spec_libsnarkWitnessMap D hf.wf hw (pub := x :: inputs) (by simpa using hf.inputs) hf.witness hf.power
    (h.domainGen _ hf.power) (power_ne h _) (h.generator _ hf.power) h.generator_ne h₀
  obtain ⟨n, hn⟩ := (spec_proveInner D (J := J) pk hw hf.inputs hf.witness hmap hf.aQuery hf.bG1Query hf.bG2Query
    h₁).ensures
  refine ⟨n, hn.mono ?_⟩
  rintro π s₀ s₁ ⟨⟨r, s, t, t₁, t₂, hm₁, hR, hS, rfl⟩, -⟩
  exact ⟨r, s, t, t₁, t₂, hm₁, hR, hS, fun _ => rfl⟩

end Generic

section Rep3

variable [SampleVec R (ZMod p)] [Sample R G₁] [Codec M (List G₁)] [Codec M (List G₂)] {ty : A2BType}
  {st st₀ st₁ : PartyID → Rep3State R} {wit : PartyID → List (Share (ZMod p))} {pk : ProvingKey G₁ G₂}

/-- The driver for replicated shares, for the groups at hand. -/
abbrev rep3 (G₁ G₂ : Type) [AddCommGroup G₁] [Module (ZMod p) G₁] [AddCommGroup G₂] [Module (ZMod p) G₂]
    [Sample R G₁] [Codec M (List G₁)] [Codec M (List G₂)] :
    Driver PartyID (Rep3State R) M (ZMod p) (Share (ZMod p)) G₁ G₂ := rep3Driver

/-- C76: on replicated shares the witness map of Circom gives an additive sharing of the values of `A * B - C` on the
coset. -/
theorem C76_rep3_circom (h : pr.Valid) (hm : m.WellFormed) (hp : m.power ≤ pr.twoAdicity)
    (hpub : pub.length = m.numInstance) (hl : ws.length = m.numWitness) (hw : IsShares wit ws) {w v : ZMod p}
    (hr : groth16RootsOfUnity pr m.power = some (w, v)) (hst : Corr ty st) :
    Ensures (M := M) (fun i => circomWitnessMap pr (rep3 G₁ G₂) m pub (wit i)) st (fun r _ =>
      Cols IsAdditive r (m.circomH w v (pub ++ ws))) :=
  circom_map (rep3Driver_spec (R := R) (M := M) (F := ZMod p) (G₁ := G₁) (G₂ := G₂) (ty := ty)) h hm hp hpub hl hw hr hst

/-- C76: on replicated shares the witness map of libsnark gives an additive sharing of the coefficients of the quotient
of `A * B - C` by the vanishing polynomial of the domain, if the assignment satisfies the constraints. -/
theorem C76_rep3_libsnark (h : pr.Valid) (hm : m.WellFormed) (hp : m.power ≤ pr.twoAdicity)
    (hpub : pub.length = m.numInstance) (hl : ws.length = m.numWitness) (hw : IsShares wit ws)
    (hz : m.Satisfied (pub ++ ws)) (hst : Corr ty st) :
    Ensures (M := M) (fun i => libsnarkWitnessMap pr (rep3 G₁ G₂) m pub (wit i)) st (fun r _ =>
      ∃ q, (X ^ 2 ^ m.power - 1) * q = m.qap (pr.domainGen m.power) (pub ++ ws) ∧
        Cols IsAdditive r (coefficients m q)) :=
  libsnark_map (rep3Driver_spec (R := R) (M := M) (F := ZMod p) (G₁ := G₁) (G₂ := G₂) (ty := ty)) h hm hp hpub hl hw hz hst

variable [Codec J G₁] [Codec J G₂]

/-- C77: with replicated shares all parties get the Groth16 proof for the shared assignment, for the random values that
the three generators produce after two rounds of masks. -/
theorem C77_rep3_circom (h : pr.Valid) (hf : Fits pr m pk inputs ws) (hw : IsShares wit ws) {w v : ZMod p}
    (hr : groth16RootsOfUnity pr m.power = some (w, v)) (h₀ : Corr ty st₀) (h₁ : Corr ty st₁) :
    EnsuresTwo (M := M) (J := J)
      (fun i => proveInner (circomWitnessMap pr (rep3 G₁ G₂)) (rep3 G₁ G₂) pk m (x :: inputs) (wit i)) st₀ st₁
      (fun π _ _ => let st := afterMasks (ZMod p) (2 ^ m.power) (afterMasks (ZMod p) (2 ^ m.power) st₀)
        ∀ i, π i = proofFor pk (1 :: inputs ++ ws) m.numInstance (m.circomH w v (x :: inputs ++ ws))
          (Rep3.randValue (ZMod p) st) (Rep3.randValue (ZMod p) (Rep3.afterRand (ZMod p) st))) := by
  obtain ⟨n, hn⟩ := circom_prove (x := x) (J := J)
    (rep3Driver_spec (R := R) (M := M) (F := ZMod p) (G₁ := G₁) (G₂ := G₂) (ty := ty)) h hf hw hr h₀ h₁
  refine ⟨n, hn.mono ?_⟩
  rintro π s₀ s₁ ⟨r, s, t, t', t₁, t₂, rfl, rfl, ⟨rfl, rfl⟩, ⟨rfl, rfl⟩, hπ⟩
  exact hπ

/-- C77: the same with the witness map of libsnark. -/
theorem C77_rep3_libsnark (h : pr.Valid) (hf : Fits pr m pk inputs ws) (hw : IsShares wit ws)
    (h₀ : Corr ty st₀) (h₁ : Corr ty st₁) :
    EnsuresTwo (M := M) (J := J)
      (fun i => proveInner (libsnarkWitnessMap pr (rep3 G₁ G₂)) (rep3 G₁ G₂) pk m (x :: inputs) (wit i)) st₀ st₁
      (fun π _ _ => let st := afterMasks (ZMod p) (2 ^ m.power) st₀
        ∀ i, π i = proofFor pk (1 :: inputs ++ ws) m.numInstance
          (m.libsnarkH (pr.domainGen m.power) pr.generator (x :: inputs ++ ws))
          (Rep3.randValue (ZMod p) st) (Rep3.randValue (ZMod p) (Rep3.afterRand (ZMod p) st))) := by
  obtain ⟨n, hn⟩ := libsnark_prove (x := x) (J := J)
    (rep3Driver_spec (R := R) (M := M) (F := ZMod p) (G₁ := G₁) (G₂ := G₂) (ty := ty)) h hf hw h₀ h₁
  refine ⟨n, hn.mono ?_⟩
  rintro π s₀ s₁ ⟨r, s, t, t₁, t₂, rfl, ⟨rfl, rfl⟩, ⟨rfl, rfl⟩, hπ⟩
  exact hπ

end Rep3

section Shamir

variable {n t : Nat} [Codec M (List (ZMod p))] [Codec M G₁] [Codec M G₂] [Codec M (List G₁)]
  {st st₀ st₁ : Fin n → ShamirState n R (ZMod p)} {wit : Fin n → List (ZMod p)} {pk : ProvingKey G₁ G₂} (gen : G₁)

/-- The driver for Shamir shares, for the groups at hand. -/
abbrev shamir (G₂ : Type) [AddCommGroup G₂] [Module (ZMod p) G₂] [Codec M G₂] (gen : G₁) :
    Driver (Fin n) (ShamirState n R (ZMod p)) M (ZMod p) (ZMod p) G₁ G₂ := shamirDriver gen

/-- C76: on Shamir shares the witness map of Circom gives sharings of degree `2t` of the values of `A * B - C` on the
coset. -/
theorem C76_shamir_circom (h : pr.Valid) (hm : m.WellFormed) (hp : m.power ≤ pr.twoAdicity)
    (hpub : pub.length = m.numInstance) (hl : ws.length = m.numWitness) (hw : IsShamirs (ZMod p) t wit ws)
    {w v : ZMod p} (hr : groth16RootsOfUnity pr m.power = some (w, v)) (hst : ShCorr t st) :
    Ensures (M := M) (fun i => circomWitnessMap pr (shamir G₂ gen) m pub (wit i)) st (fun r _ =>
      IsShamirs (ZMod p) (2 * t) r (m.circomH w v (pub ++ ws))) :=
  circom_map (shamirDriver_spec (n := n) (R := R) (M := M) (F := ZMod p) (G₁ := G₁) (G₂ := G₂) (t := t) gen) h hm hp hpub
    hl hw hr hst

/-- C76: on Shamir shares the witness map of libsnark gives sharings of degree `2t` of the coefficients of the
quotient. -/
theorem C76_shamir_libsnark (h : pr.Valid) (hm : m.WellFormed) (hp : m.power ≤ pr.twoAdicity)
    (hpub : pub.length = m.numInstance) (hl : ws.length = m.numWitness) (hw : IsShamirs (ZMod p) t wit ws)
    (hz : m.Satisfied (pub ++ ws)) (hst : ShCorr t st) :
    Ensures (M := M) (fun i => libsnarkWitnessMap pr (shamir G₂ gen) m pub (wit i)) st (fun r _ =>
      ∃ q, (X ^ 2 ^ m.power - 1) * q = m.qap (pr.domainGen m.power) (pub ++ ws) ∧
        IsShamirs (ZMod p) (2 * t) r (coefficients m q)) :=
  libsnark_map (shamirDriver_spec (n := n) (R := R) (M := M) (F := ZMod p) (G₁ := G₁) (G₂ := G₂) (t := t) gen) h hm hp
    hpub hl hw hz hst

variable [Codec J G₁] [Codec J G₂]

/-- C77: with Shamir shares all parties get the Groth16 proof for the shared assignment, for the random values of the
next two double sharings. -/
theorem C77_shamir_circom (h : pr.Valid) (hf : Fits pr m pk inputs ws) (hw : IsShamirs (ZMod p) t wit ws)
    {w v : ZMod p} (hr : groth16RootsOfUnity pr m.power = some (w, v)) (h₀ : ShCorr t st₀) (h₁ : ShCorr t st₁) :
    EnsuresTwo (M := M) (J := J)
      (fun i => proveInner (circomWitnessMap pr (shamir G₂ gen)) (shamir G₂ gen) pk m (x :: inputs) (wit i)) st₀ st₁
      (fun π _ _ => ∃ r s t₁ t₂, NextPair t st₀ r t₁ ∧ NextPair t t₁ s t₂ ∧
        ∀ i, π i = proofFor pk (1 :: inputs ++ ws) m.numInstance (m.circomH w v (x :: inputs ++ ws)) r s) := by
  obtain ⟨n, hn⟩ := circom_prove (x := x) (J := J)
    (shamirDriver_spec (n := n) (R := R) (M := M) (F := ZMod p) (G₁ := G₁) (G₂ := G₂) (t := t) gen) h hf hw hr h₀ h₁
  refine ⟨n, hn.mono ?_⟩
  rintro π s₀ s₁ ⟨r, s, t, t', t₁, t₂, rfl, rfl, hR, hS, hπ⟩
  exact ⟨r, s, t₁, t₂, hR, hS, hπ⟩

/-- C77: the same with the witness map of libsnark. -/
theorem C77_shamir_libsnark (h : pr.Valid) (hf : Fits pr m pk inputs ws) (hw : IsShamirs (ZMod p) t wit ws)
    (h₀ : ShCorr t st₀) (h₁ : ShCorr t st₁) :
    EnsuresTwo (M := M) (J := J)
      (fun i => proveInner (libsnarkWitnessMap pr (shamir G₂ gen)) (shamir G₂ gen) pk m (x :: inputs) (wit i)) st₀ st₁
      (fun π _ _ => ∃ r s t₁ t₂, NextPair t st₀ r t₁ ∧ NextPair t t₁ s t₂ ∧
        ∀ i, π i = proofFor pk (1 :: inputs ++ ws) m.numInstance
          (m.libsnarkH (pr.domainGen m.power) pr.generator (x :: inputs ++ ws)) r s) := by
  obtain ⟨n, hn⟩ := libsnark_prove (x := x) (J := J)
    (shamirDriver_spec (n := n) (R := R) (M := M) (F := ZMod p) (G₁ := G₁) (G₂ := G₂) (t := t) gen) h hf hw h₀ h₁
  refine ⟨n, hn.mono ?_⟩
  rintro π s₀ s₁ ⟨r, s, t, t₁, t₂, rfl, hR, hS, hπ⟩
  exact ⟨r, s, t₁, t₂, hR, hS, hπ⟩

/-- The bridge runs the prover on translated shares. -/
theorem bridge_eq (hF : PointsDistinct (ZMod p) 3) {wit : PartyID → List (Share (ZMod p))} (hw : IsShares wit ws)
    (witnessMap : Matrices (ZMod p) → List (ZMod p) → List (ZMod p) →
      MPC (Fin 3) (ShamirState 3 R (ZMod p)) M Err (List (ZMod p))) (pub : List (ZMod p)) :
    ∃ sh : Fin 3 → List (ZMod p), IsShamirs (ZMod p) 1 sh ws ∧ ∀ i s₀ s₁,
      proveWithShamirBridge (J := J) gen witnessMap pk m pub (wit (Bridge.party3 i)) i s₀ s₁ =
        proveInner witnessMap (shamir G₂ gen) pk m pub (sh i) i s₀ s₁ := by
  obtain ⟨sh, h1, h2⟩ := Bridge.translateVec_isShamir hF hw
  refine ⟨sh, h2, fun i s₀ s₁ => ?_⟩
  show (MPC₂.first MPC.netId >>= fun id => _) i s₀ s₁ = _
  rw [MPC₂.bind_apply]
  show (MPC₂.first (orPanic (Bridge.translateRepshareVec (ZMod p) (wit (Bridge.party3 i)) (Bridge.party3 i))) >>=
    fun tr => proveInner witnessMap (shamirDriver gen) pk m pub tr) i s₀ s₁ = _
  rw [h1]
  rfl

/-- C77: the prover that first translates replicated shares into Shamir shares. -/
theorem C77_bridge_circom (h : pr.Valid) (hF : PointsDistinct (ZMod p) 3) (hf : Fits pr m pk inputs ws)
    {wit : PartyID → List (Share (ZMod p))} (hw : IsShares wit ws) {w v : ZMod p}
    (hr : groth16RootsOfUnity pr m.power = some (w, v)) {st₀ st₁ : Fin 3 → ShamirState 3 R (ZMod p)}
    (h₀ : ShCorr 1 st₀) (h₁ : ShCorr 1 st₁) :
    EnsuresTwo (M := M) (J := J) (fun i => proveWithShamirBridge gen
        (circomWitnessMap pr (shamir G₂ gen)) pk m (x :: inputs) (wit (Bridge.party3 i))) st₀ st₁
      (fun π _ _ => ∃ r s t₁ t₂, NextPair 1 st₀ r t₁ ∧ NextPair 1 t₁ s t₂ ∧
        ∀ i, π i = proofFor pk (1 :: inputs ++ ws) m.numInstance (m.circomH w v (x :: inputs ++ ws)) r s) := by
  obtain ⟨sh, h1, h2⟩ := bridge_eq (J := J) (R := R) (M := M) (G₂ := G₂) (pk := pk) (m := m) gen hF hw
    (circomWitnessMap pr (shamir G₂ gen)) (x :: inputs)
  obtain ⟨n, hn⟩ := C77_shamir_circom (x := x) (M := M) (J := J) gen h hf h1 hr h₀ h₁
  refine ⟨n, ?_⟩
  have e : ∀ f g : Fin 3 → MPC₂ (Fin 3) (ShamirState 3 R (ZMod p)) M J (Proof G₁ G₂),
      (∀ i s₀ s₁, f i i s₀ s₁ = g i i s₀ s₁) → MPC₂.actors n f st₀ st₁ = MPC₂.actors n g st₀ st₁ :=
    fun f g hfg => by funext i; simp only [MPC₂.actors, hfg]
  rw [e _ _ h2]
  exact hn

/-- C77: the same with the witness map of libsnark. -/
theorem C77_bridge_libsnark (h : pr.Valid) (hF : PointsDistinct (ZMod p) 3) (hf : Fits pr m pk inputs ws)
    {wit : PartyID → List (Share (ZMod p))} (hw : IsShares wit ws) {st₀ st₁ : Fin 3 → ShamirState 3 R (ZMod p)}
    (h₀ : ShCorr 1 st₀) (h₁ : ShCorr 1 st₁) :
    EnsuresTwo (M := M) (J := J) (fun i => proveWithShamirBridge gen
        (libsnarkWitnessMap pr (shamir G₂ gen)) pk m (x :: inputs) (wit (Bridge.party3 i))) st₀ st₁
      (fun π _ _ => ∃ r s t₁ t₂, NextPair 1 st₀ r t₁ ∧ NextPair 1 t₁ s t₂ ∧
        ∀ i, π i = proofFor pk (1 :: inputs ++ ws) m.numInstance
          (m.libsnarkH (pr.domainGen m.power) pr.generator (x :: inputs ++ ws)) r s) := by
  obtain ⟨sh, h1, h2⟩ := bridge_eq (J := J) (R := R) (M := M) (G₂ := G₂) (pk := pk) (m := m) gen hF hw
    (libsnarkWitnessMap pr (shamir G₂ gen)) (x :: inputs)
  obtain ⟨n, hn⟩ := C77_shamir_libsnark (x := x) (M := M) (J := J) gen h hf h1 h₀ h₁
  refine ⟨n, ?_⟩
  have e : ∀ f g : Fin 3 → MPC₂ (Fin 3) (ShamirState 3 R (ZMod p)) M J (Proof G₁ G₂),
      (∀ i s₀ s₁, f i i s₀ s₁ = g i i s₀ s₁) → MPC₂.actors n f st₀ st₁ = MPC₂.actors n g st₀ st₁ :=
    fun f g hfg => by funext i; simp only [MPC₂.actors, hfg]
  rw [e _ _ h2]
  exact hn

end Shamir

section Plain

variable {st₀ st₁ : Unit → R} {pk : ProvingKey G₁ G₂} [Codec J G₁] [Codec J G₂]

/-- C77: the prover in the clear computes the same. -/
theorem C77_plain_circom (h : pr.Valid) (hf : Fits pr m pk inputs ws) {w v : ZMod p}
    (hr : groth16RootsOfUnity pr m.power = some (w, v)) :
    EnsuresTwo (M := M) (J := J)
      (fun _ => proveInner (circomWitnessMap pr (plainDriver (G₁ := G₁) (G₂ := G₂))) plainDriver pk m (x :: inputs) ws)
      st₀ st₁ (fun π _ _ => let (r, g) := Sample.sample (st₀ ())
        π () = proofFor pk (1 :: inputs ++ ws) m.numInstance (m.circomH w v (x :: inputs ++ ws)) r
          (Sample.sample g).1) := by
  obtain ⟨n, hn⟩ := circom_prove (x := x) (J := J)
    (plainDriver_spec (R := R) (M := M) (F := ZMod p) (G₁ := G₁) (G₂ := G₂)) h hf (cols_const ws) hr
    (st₀ := st₀) (st₁ := st₁) trivial trivial
  refine ⟨n, hn.mono ?_⟩
  rintro π s₀ s₁ ⟨r, s, t, t', t₁, t₂, e, e', hR, hS, hπ⟩
  rw [e', e] at hR
  rw [← hR]
  have e2 : (Sample.sample (t₁ ())).1 = s := by rw [← hS]
  simpa only [e2] using hπ ()

/-- C77: the same with the witness map of libsnark. -/
theorem C77_plain_libsnark (h : pr.Valid) (hf : Fits pr m pk inputs ws) :
    EnsuresTwo (M := M) (J := J)
      (fun _ => proveInner (libsnarkWitnessMap pr (plainDriver (G₁ := G₁) (G₂ := G₂))) plainDriver pk m (x :: inputs) ws)
      st₀ st₁ (fun π _ _ => let (r, g) := Sample.sample (st₀ ())
        π () = proofFor pk (1 :: inputs ++ ws) m.numInstance
          (m.libsnarkH (pr.domainGen m.power) pr.generator (x :: inputs ++ ws)) r (Sample.sample g).1) := by
  obtain ⟨n, hn⟩ := libsnark_prove (x := x) (J := J)
    (plainDriver_spec (R := R) (M := M) (F := ZMod p) (G₁ := G₁) (G₂ := G₂)) h hf (cols_const ws)
    (st₀ := st₀) (st₁ := st₁) trivial trivial
  refine ⟨n, hn.mono ?_⟩
  rintro π s₀ s₁ ⟨r, s, t, t₁, t₂, e, hR, hS, hπ⟩
  rw [e] at hR
  rw [← hR]
  have e2 : (Sample.sample (t₁ ())).1 = s := by rw [← hS]
  simpa only [e2] using hπ ()

end Plain

end

/-! ### Rejected inputs -/

section Reject

variable {ι S M J F A G₁ G₂ : Type} [DecidableEq ι] [Fintype ι] [Field F] [DecidableEq F] [AddCommGroup G₁] [Module F G₁]
  [AddCommGroup G₂] [Module F G₂] [Zero A] [Add A] [SMul F A] [Codec J G₁] [Codec J G₂] {d : Driver ι S M F A G₁ G₂}
  {pk : ProvingKey G₁ G₂} {m : Matrices F} {pub : List F} {wit : ι → List A} {st₀ st₁ : ι → S}

/-- C77: a wrong number of public inputs is an error at all parties, whatever the driver. -/
theorem C77_public_inputs (wm : Matrices F → List F → List A → MPC ι S M Err (List F))
    (h : pub.length ≠ m.numInstance) : FailsTwo (J := J) (fun i => proveInner wm d pk m pub (wit i)) st₀ st₁
      (.err "amount of public inputs does not match with provided constraint system!") :=
  failsTwo fun i => by rw [proveInner, if_pos h]; rfl

/-- C77: a wrong number of witness values is an error at all parties, whatever the driver. -/
theorem C77_witness (wm : Matrices F → List F → List A → MPC ι S M Err (List F)) (hp : pub.length = m.numInstance)
    (h : ∀ i, (wit i).length ≠ m.numWitness) :
    FailsTwo (J := J) (fun i => proveInner wm d pk m pub (wit i)) st₀ st₁
      (.err "amount of private witness variables does not match with provided constraint system!") :=
  failsTwo fun i => by rw [proveInner, if_neg (not_not.2 hp), if_pos (h i)]; rfl

/-- C77: a constraint system that is too large for the field is an error at all parties, whatever the driver and
the kind of witness map. -/
theorem C77_too_large {pr : FftParams F} (hp : pub.length = m.numInstance) (hw : ∀ i, (wit i).length = m.numWitness)
    (h : pr.twoAdicity < m.power) :
    FailsTwo (J := J) (fun i => proveInner (circomWitnessMap pr d) d pk m pub (wit i)) st₀ st₁
      (.err "Polynomial Degree too large") ∧
    FailsTwo (J := J) (fun i => proveInner (libsnarkWitnessMap pr d) d pk m pub (wit i)) st₀ st₁
      (.err "Polynomial Degree too large") := by
  have e : pr.twoAdicity < (nextPowerOfTwo (m.numConstraints + m.numInstance)).log2 := by
    rw [nextPowerOfTwo, Nat.log2_two_pow]; exact h
  constructor
  · refine failsTwo fun i => ?_
    rw [proveInner, if_neg (not_not.2 hp), if_neg (not_not.2 (hw i))]
    simp only [circomWitnessMap, if_pos e]
    rfl
  · refine failsTwo fun i => ?_
    rw [proveInner, if_neg (not_not.2 hp), if_neg (not_not.2 (hw i))]
    simp only [libsnarkWitnessMap, if_pos e]
    rfl

omit [DecidableEq F] [Zero A] [Add A] [SMul F A] in
/-- C77: without public inputs, not even the constant, building the proof panics at all parties. -/
theorem C77_no_inputs {r s : ι → A} {h aux : ι → List F} :
    FailsTwo (J := J) (fun i => createProof d pk (r i) (s i) (h i) [] (aux i)) st₀ st₁
      (.panic "index out of bounds") :=
  failsTwo fun _ => rfl

end Reject

/-! ## C78: completeness -/

section

variable {R M J G₁ G₂ GT : Type} [AddCommGroup G₁] [Module (ZMod p) G₁] [AddCommGroup G₂]
  [Module (ZMod p) G₂] [AddCommGroup GT] [Module (ZMod p) GT] [Sample R (ZMod p)] {m : Matrices (ZMod p)}
  {inputs ws ws' : List (ZMod p)} {pk : ProvingKey G₁ G₂} {x : Toxic (ZMod p)} {g₁ : G₁} {g₂ : G₂}

/-- A statement and a witness for a constraint system, and a key from a trusted setup for it; the domain is generated by
`w`. -/
structure Statement (pr : FftParams (ZMod p)) (m : Matrices (ZMod p)) (w : ZMod p) (x : Toxic (ZMod p)) (g₁ : G₁)
    (g₂ : G₂) (pk : ProvingKey G₁ G₂) (inputs ws : List (ZMod p)) : Prop where
  valid : pr.Valid
  wf : m.WellFormed
  satisfied : m.Satisfied (1 :: inputs ++ ws)
  inputs : inputs.length + 1 = m.numInstance
  witness : ws.length = m.numWitness
  key : IsKey m w x g₁ g₂ pk
  gamma : x.γ ≠ 0
  delta : x.δ ≠ 0

theorem Statement.fits {w : ZMod p} (h : Statement pr m w x g₁ g₂ pk inputs ws) (hp : m.power ≤ pr.twoAdicity) :
    Fits pr m pk inputs ws where
  wf := h.wf
  power := hp
  inputs := h.inputs
  witness := h.witness
  aQuery := by rw [h.key.aQuery]; simp
  bG1Query := by rw [h.key.bG1Query]; simp
  bG2Query := by rw [h.key.bG2Query]; simp

theorem Statement.circom {w v : ZMod p} (h : Statement pr m w x g₁ g₂ pk inputs ws) (hp : m.power < pr.twoAdicity)
    (hr : groth16RootsOfUnity pr m.power = some (w, v)) (hc : IsCircomKey m v x g₁ pk) :
    Groth16.combine pk.hQuery (m.circomH w v (1 :: inputs ++ ws)) =
      ((m.qap w (1 :: inputs ++ ws)).eval x.τ / x.δ) • g₁ := by
  obtain ⟨w', v', e, h1, -, h2⟩ := (C76_generators h.valid m.power).1 hp
  rw [hr] at e
  obtain ⟨rfl, rfl⟩ := Prod.mk.inj (Option.some.inj e)
  exact circom_query h2 h1 hc h.satisfied

theorem Statement.libsnark (h : Statement pr m (pr.domainGen m.power) x g₁ g₂ pk inputs ws)
    (hp : m.power ≤ pr.twoAdicity) (hc : IsLibsnarkKey m x g₁ pk) :
    Groth16.combine pk.hQuery (m.libsnarkH (pr.domainGen m.power) pr.generator (1 :: inputs ++ ws)) =
      ((m.qap (pr.domainGen m.power) (1 :: inputs ++ ws)).eval x.τ / x.δ) • g₁ :=
  libsnark_query (h.valid.domainGen _ hp) (h.valid.generator _ hp) h.valid.generator_ne hc h.satisfied

/-- All parties get the same proof, and the verifier accepts it. -/
def AllVerify {ι : Type} (e : G₁ →ₗ[ZMod p] G₂ →ₗ[ZMod p] GT) (pk : ProvingKey G₁ G₂) (inputs : List (ZMod p))
    (πs : ι → Proof G₁ G₂) : Prop := ∃ π, Verifies e pk inputs π ∧ ∀ i, πs i = π

theorem EnsuresTwo.imp {ι S α : Type} [DecidableEq ι] [Fintype ι] {f : ι → MPC₂ ι S M J α} {st₀ st₁ : ι → S}
    {Q Q' : (ι → α) → (ι → S) → (ι → S) → Prop} (h : EnsuresTwo f st₀ st₁ Q) (hq : ∀ a s s', Q a s s' → Q' a s s') :
    EnsuresTwo f st₀ st₁ Q' :=
  h.imp fun _ h => h.mono hq

section Rep3

variable [SampleVec R (ZMod p)] [Sample R G₁] [Codec M (List G₁)] [Codec M (List G₂)] {ty : A2BType}
  {st₀ st₁ : PartyID → Rep3State R} {wit : PartyID → List (Share (ZMod p))} [Codec J G₁] [Codec J G₂]

/-- C78: three parties with replicated shares of a satisfying witness and a key from snarkjs all get the same proof,
and the verifier accepts it. -/
theorem C78_rep3_circom {w v : ZMod p} (h : Statement pr m w x g₁ g₂ pk inputs ws) (hp : m.power < pr.twoAdicity)
    (hr : groth16RootsOfUnity pr m.power = some (w, v)) (hc : IsCircomKey m v x g₁ pk) (hw : IsShares wit ws)
    (h₀ : Corr ty st₀) (h₁ : Corr ty st₁) (e : G₁ →ₗ[ZMod p] G₂ →ₗ[ZMod p] GT) :
    EnsuresTwo (M := M) (J := J)
      (fun i => proveInner (circomWitnessMap pr (rep3 G₁ G₂)) (rep3 G₁ G₂) pk m (1 :: inputs) (wit i)) st₀ st₁
      (fun πs _ _ => AllVerify e pk inputs πs) :=
  EnsuresTwo.imp (C77_rep3_circom h.valid (h.fits hp.le) hw hr h₀ h₁) fun _ _ _ hπ =>
    ⟨_, verifies_of_key h.wf h.key h.gamma h.delta h.inputs h.witness (h.circom hp hr hc) _ _ e, hπ⟩

/-- C78: the same for a key from libsnark or arkworks and the other witness map. -/
theorem C78_rep3_libsnark (h : Statement pr m (pr.domainGen m.power) x g₁ g₂ pk inputs ws)
    (hp : m.power ≤ pr.twoAdicity) (hc : IsLibsnarkKey m x g₁ pk) (hw : IsShares wit ws)
    (h₀ : Corr ty st₀) (h₁ : Corr ty st₁) (e : G₁ →ₗ[ZMod p] G₂ →ₗ[ZMod p] GT) :
    EnsuresTwo (M := M) (J := J)
      (fun i => proveInner (libsnarkWitnessMap pr (rep3 G₁ G₂)) (rep3 G₁ G₂) pk m (1 :: inputs) (wit i)) st₀ st₁
      (fun πs _ _ => AllVerify e pk inputs πs) :=
  EnsuresTwo.imp (C77_rep3_libsnark h.valid (h.fits hp) hw h₀ h₁) fun _ _ _ hπ =>
    ⟨_, verifies_of_key h.wf h.key h.gamma h.delta h.inputs h.witness (h.libsnark hp hc) _ _ e, hπ⟩

end Rep3

section Shamir

variable {n t : Nat} [Codec M (List (ZMod p))] [Codec M G₁] [Codec M G₂] [Codec M (List G₁)] [Codec J G₁] [Codec J G₂]
  {st₀ st₁ : Fin n → ShamirState n R (ZMod p)} {wit : Fin n → List (ZMod p)} (gen : G₁)

/-- C78: any number of parties with Shamir shares of a satisfying witness and a key from snarkjs. -/
theorem C78_shamir_circom {w v : ZMod p} (h : Statement pr m w x g₁ g₂ pk inputs ws) (hp : m.power < pr.twoAdicity)
    (hr : groth16RootsOfUnity pr m.power = some (w, v)) (hc : IsCircomKey m v x g₁ pk)
    (hw : IsShamirs (ZMod p) t wit ws) (h₀ : ShCorr t st₀) (h₁ : ShCorr t st₁)
    (e : G₁ →ₗ[ZMod p] G₂ →ₗ[ZMod p] GT) :
    EnsuresTwo (M := M) (J := J)
      (fun i => proveInner (circomWitnessMap pr (shamir G₂ gen)) (shamir G₂ gen) pk m (1 :: inputs) (wit i)) st₀ st₁
      (fun πs _ _ => AllVerify e pk inputs πs) := by
  refine EnsuresTwo.imp (C77_shamir_circom gen h.valid (h.fits hp.le) hw hr h₀ h₁) ?_
  rintro _ _ _ ⟨r, s, -, -, -, -, hπ⟩
  exact ⟨_, verifies_of_key h.wf h.key h.gamma h.delta h.inputs h.witness (h.circom hp hr hc) _ _ e, hπ⟩

/-- C78: any number of parties with Shamir shares of a satisfying witness and a key from libsnark or arkworks. -/
theorem C78_shamir_libsnark (h : Statement pr m (pr.domainGen m.power) x g₁ g₂ pk inputs ws)
    (hp : m.power ≤ pr.twoAdicity) (hc : IsLibsnarkKey m x g₁ pk) (hw : IsShamirs (ZMod p) t wit ws)
    (h₀ : ShCorr t st₀) (h₁ : ShCorr t st₁) (e : G₁ →ₗ[ZMod p] G₂ →ₗ[ZMod p] GT) :
    EnsuresTwo (M := M) (J := J)
      (fun i => proveInner (libsnarkWitnessMap pr (shamir G₂ gen)) (shamir G₂ gen) pk m (1 :: inputs) (wit i)) st₀ st₁
      (fun πs _ _ => AllVerify e pk inputs πs) := by
  refine EnsuresTwo.imp (C77_shamir_libsnark gen h.valid (h.fits hp) hw h₀ h₁) ?_
  rintro _ _ _ ⟨r, s, -, -, -, -, hπ⟩
  exact ⟨_, verifies_of_key h.wf h.key h.gamma h.delta h.inputs h.witness (h.libsnark hp hc) _ _ e, hπ⟩

/-- C78: three parties that translate their replicated shares first. -/
theorem C78_bridge_circom (hF : PointsDistinct (ZMod p) 3) {w v : ZMod p}
    (h : Statement pr m w x g₁ g₂ pk inputs ws) (hp : m.power < pr.twoAdicity)
    (hr : groth16RootsOfUnity pr m.power = some (w, v)) (hc : IsCircomKey m v x g₁ pk)
    {wit : PartyID → List (Share (ZMod p))} (hw : IsShares wit ws) {st₀ st₁ : Fin 3 → ShamirState 3 R (ZMod p)}
    (h₀ : ShCorr 1 st₀) (h₁ : ShCorr 1 st₁) (e : G₁ →ₗ[ZMod p] G₂ →ₗ[ZMod p] GT) :
    EnsuresTwo (M := M) (J := J) (fun i => proveWithShamirBridge gen
        (circomWitnessMap pr (shamir G₂ gen)) pk m (1 :: inputs) (wit (Bridge.party3 i))) st₀ st₁
      (fun πs _ _ => AllVerify e pk inputs πs) := by
  refine EnsuresTwo.imp (C77_bridge_circom gen h.valid hF (h.fits hp.le) hw hr h₀ h₁) ?_
  rintro _ _ _ ⟨r, s, -, -, -, -, hπ⟩
  exact ⟨_, verifies_of_key h.wf h.key h.gamma h.delta h.inputs h.witness (h.circom hp hr hc) _ _ e, hπ⟩

/-- C78: three parties that translate their replicated shares first. -/
theorem C78_bridge_libsnark (hF : PointsDistinct (ZMod p) 3)
    (h : Statement pr m (pr.domainGen m.power) x g₁ g₂ pk inputs ws) (hp : m.power ≤ pr.twoAdicity)
    (hc : IsLibsnarkKey m x g₁ pk) {wit : PartyID → List (Share (ZMod p))} (hw : IsShares wit ws)
    {st₀ st₁ : Fin 3 → ShamirState 3 R (ZMod p)} (h₀ : ShCorr 1 st₀) (h₁ : ShCorr 1 st₁)
    (e : G₁ →ₗ[ZMod p] G₂ →ₗ[ZMod p] GT) :
    EnsuresTwo (M := M) (J := J) (fun i => proveWithShamirBridge gen
        (libsnarkWitnessMap pr (shamir G₂ gen)) pk m (1 :: inputs) (wit (Bridge.party3 i))) st₀ st₁
      (fun πs _ _ => AllVerify e pk inputs πs) := by
  refine EnsuresTwo.imp (C77_bridge_libsnark gen h.valid hF (h.fits hp) hw h₀ h₁) ?_
  rintro _ _ _ ⟨r, s, -, -, -, -, hπ⟩
  exact ⟨_, verifies_of_key h.wf h.key h.gamma h.delta h.inputs h.witness (h.libsnark hp hc) _ _ e, hπ⟩

end Shamir

/-! ## C79: zero knowledge -/

/-- C79: two witnesses for the same public inputs have the same distribution of proofs: a permutation of the random
values turns the proofs for one into those for the other. -/
theorem C79_circom {w v : ZMod p} (h : Statement pr m w x g₁ g₂ pk inputs ws)
    (h' : Statement pr m w x g₁ g₂ pk inputs ws') (hp : m.power < pr.twoAdicity)
    (hr : groth16RootsOfUnity pr m.power = some (w, v)) (hc : IsCircomKey m v x g₁ pk) :
    ∃ f : ZMod p × ZMod p ≃ ZMod p × ZMod p, ∀ rs,
      proofFor pk (1 :: inputs ++ ws') m.numInstance (m.circomH w v (1 :: inputs ++ ws')) (f rs).1 (f rs).2 =
        proofFor pk (1 :: inputs ++ ws) m.numInstance (m.circomH w v (1 :: inputs ++ ws)) rs.1 rs.2 :=
  proofs_equiv h.wf h.key h.delta (by simp [← h.inputs, h.witness, add_right_comm])
    (by simp [← h.inputs, h'.witness, add_right_comm]) (h.circom hp hr hc) (h'.circom hp hr hc)
    (by rw [← h.inputs]; simp)

/-- C79: the same for the other witness map. -/
theorem C79_libsnark (h : Statement pr m (pr.domainGen m.power) x g₁ g₂ pk inputs ws)
    (h' : Statement pr m (pr.domainGen m.power) x g₁ g₂ pk inputs ws') (hp : m.power ≤ pr.twoAdicity)
    (hc : IsLibsnarkKey m x g₁ pk) :
    ∃ f : ZMod p × ZMod p ≃ ZMod p × ZMod p, ∀ rs,
      proofFor pk (1 :: inputs ++ ws') m.numInstance
          (m.libsnarkH (pr.domainGen m.power) pr.generator (1 :: inputs ++ ws')) (f rs).1 (f rs).2 =
        proofFor pk (1 :: inputs ++ ws) m.numInstance
          (m.libsnarkH (pr.domainGen m.power) pr.generator (1 :: inputs ++ ws)) rs.1 rs.2 :=
  proofs_equiv h.wf h.key h.delta (by simp [← h.inputs, h.witness, add_right_comm])
    (by simp [← h.inputs, h'.witness, add_right_comm]) (h.libsnark hp hc) (h'.libsnark hp hc)
    (by rw [← h.inputs]; simp)

end

/-! ## A concrete case -/

end Verif.Props

namespace Verif.Demo

open PartyID Verif.Groth16 Polynomial

instance : Fact (Nat.Prime 41) := ⟨by norm_num⟩

abbrev F41 := ZMod 41

instance : Sample Nat F41 := ⟨fun r => (r, r + 1)⟩
instance : SampleVec Nat F41 := ⟨fun r n => (List.replicate n r, r + n), by simp⟩

inductive GMsg where
  | f (x : List F41)
  | f1 (x : F41)
  | n (x : List Nat)

instance : Codec GMsg (List F41) := ⟨.f, fun | .f x => some x | _ => none, fun _ => rfl⟩
instance : Codec GMsg F41 := ⟨.f1, fun | .f1 x => some x | _ => none, fun _ => rfl⟩
instance : Codec GMsg (List Nat) := ⟨.n, fun | .n x => some x | _ => none, fun _ => rfl⟩

/-- `40 = 2 ^ 3 * 5`; `3` has order eight. -/
def params41 : FftParams F41 where
  modulus := 41
  twoAdicity := 3
  trace := 5
  generator := 6
  domainGen k := 3 ^ 2 ^ (3 - k)

theorem three_primitive : IsPrimitiveRoot (3 : F41) (2 ^ 3) :=
  IsPrimitiveRoot.mk_of_lt _ (by norm_num) (by decide) fun l h0 h => by
    have : l < 8 := h
    interval_cases l <;> decide

theorem params41_valid : params41.Valid where
  odd := rfl
  modulus := rfl
  order := rfl
  trace := rfl
  domainGen k hk := squares_primitive three_primitive hk
  generator k hk := by
    have : k ≤ 3 := hk
    interval_cases k <;> decide
  generator_ne := by decide

/-- The variables `1`, `y`, `x` and the constraint `x * x = y`. -/
def square41 : Matrices F41 where
  numInstance := 2
  numWitness := 1
  numConstraints := 1
  a := [[(1, 2)]]
  b := [[(1, 2)]]
  c := [[(1, 1)]]

theorem square41_wf : square41.WellFormed := ⟨rfl, rfl, rfl, by decide, by decide, by decide⟩
theorem square41_power : square41.power = 2 := by decide

theorem roots41 : groth16RootsOfUnity params41 square41.power = some (9, 38) := by rw [square41_power]; decide

/-- A key for the quotient of either kind. -/
noncomputable def key41 (w : F41) (x : Toxic F41) (h : List F41) : ProvingKey F41 F41 where
  alphaG1 := x.α • 1
  betaG2 := x.β • 2
  gammaG2 := x.γ • 2
  deltaG2 := x.δ • 2
  gammaAbcG1 := (List.range 2).map fun k => (square41.abc w x k / x.γ) • 1
  betaG1 := x.β • 1
  deltaG1 := x.δ • 1
  aQuery := (List.range 3).map fun k => (square41.polyA w k).eval x.τ • 1
  bG1Query := (List.range 3).map fun k => (square41.polyB w k).eval x.τ • 1
  bG2Query := (List.range 3).map fun k => (square41.polyB w k).eval x.τ • 2
  hQuery := h
  lQuery := (List.range 1).map fun k => (square41.abc w x (2 + k) / x.δ) • 1

theorem key41_isKey (w : F41) (x : Toxic F41) (h : List F41) : IsKey square41 w x 1 2 (key41 w x h) :=
  ⟨rfl, rfl, rfl, rfl, rfl, rfl, rfl, rfl, rfl, rfl, rfl⟩

def toxic41 : Toxic F41 := ⟨13, 5, 7, 11, 17⟩

/-- The points for the quotient as snarkjs computes them. -/
noncomputable def circomKey41 : ProvingKey F41 F41 := key41 9 toxic41 ((List.range (2 ^ square41.power)).map fun i =>
  ((Lagrange.basis (Finset.range (2 ^ (square41.power + 1))) (fun j => (38 : F41) ^ j) (2 * i + 1)).eval toxic41.τ /
    toxic41.δ) • 1)

noncomputable def libsnarkKey41 : ProvingKey F41 F41 := key41 (params41.domainGen square41.power) toxic41
  ((List.range (2 ^ square41.power - 1)).map fun i =>
    (toxic41.τ ^ i * (toxic41.τ ^ 2 ^ square41.power - 1) / toxic41.δ) • 1)

/-- `6 ^ 2 = 36 = 35 ^ 2` -/
theorem statement41 {w : F41} {h : List F41} {x : F41} (hx : x * x = 36) :
    Props.Statement params41 square41 w toxic41 1 2 (key41 w toxic41 h) [36] [x] where
  valid := params41_valid
  wf := square41_wf
  inputs := rfl
  witness := rfl
  satisfied := by
    intro j hj
    obtain rfl : j = 0 := by simpa [square41] using hj
    simp [rowValue, square41, hx]
  key := key41_isKey _ _ _
  gamma := by decide
  delta := by decide

/-- A sharing of `6`: `2 + 40 + 5`. -/
def six41 : PartyID → Share F41 := three ⟨2, 5⟩ ⟨40, 2⟩ ⟨5, 40⟩
theorem isShare_six41 : IsShare six41 6 := ⟨by intro i; cases i <;> rfl, by decide⟩
theorem isShares_six41 : IsShares (fun i => [six41 i]) [6] := ⟨[six41], rfl, .cons isShare_six41 .nil⟩

theorem points41 : PointsDistinct F41 3 := by
  intro i j hi hj h
  have := (ZMod.natCast_eq_natCast_iff i j 41).mp h
  rw [Nat.ModEq, Nat.mod_eq_of_lt (by omega), Nat.mod_eq_of_lt (by omega)] at this
  exact this

theorem shamir_states41 : ∃ st : Fin 3 → Shamir.ShamirState 3 Nat F41, Shamir.ShCorr 1 st := by
  obtain ⟨g, l, h1, hg, h2⟩ := Shamir.spec_preprocessingNew (M := GMsg) (Seed := Nat) (R := Nat) (t := 1)
    (amount := 10) points41 (by decide) (by decide) (fun i => i.val + 5) (fun _ => ())
  obtain ⟨st, -, h, -⟩ := Shamir.ofPreprocessing_spec hg
  exact ⟨st, h⟩

/-- Shares of `6` by `6 + 30 x` for three parties. -/
def sh6 (i : Fin 3) : F41 := 6 + 30 * ((i.val + 1 : Nat) : F41)
theorem isShamir_sh6 : IsShamir F41 1 sh6 6 :=
  ⟨fun k => if k = 0 then 6 else 30, rfl, fun i => by simp [polyAt, Finset.sum_range_succ, sh6]; ring⟩
theorem isShamirs_sh6 : IsShamirs F41 1 (fun i => [sh6 i]) [6] := ⟨[sh6], rfl, .cons isShamir_sh6 .nil⟩

/-- A pairing with values in the field. -/
noncomputable abbrev pairing41 : F41 →ₗ[F41] F41 →ₗ[F41] F41 := LinearMap.mul F41 F41

end Verif.Demo

namespace Verif.Props

open PartyID Verif.Groth16 Polynomial Verif.Demo
open Verif.Shamir (ShamirState ShCorr)

example := C76_roots_of_unity params41_valid
example := (C76_generators params41_valid 2).1 (by decide)
example := (C76_generators params41_valid 3).2.1 rfl
example := (C76_generators params41_valid 4).2.2 (by decide)

theorem fits41 {w x : F41} {h : List F41} : Fits params41 square41 (key41 w toxic41 h) [36] [x] :=
  ⟨square41_wf, by rw [square41_power]; decide, rfl, rfl, by simp [key41, square41], by simp [key41, square41],
    by simp [key41, square41]⟩

example := C76_rep3_circom (M := GMsg) (G₁ := F41) (G₂ := F41) (pub := [1, 36]) params41_valid square41_wf
  (by rw [square41_power]; decide) rfl rfl isShares_six41 roots41 corr_states
example := C76_rep3_libsnark (M := GMsg) (G₁ := F41) (G₂ := F41) (pub := [1, 36]) params41_valid square41_wf
  (by rw [square41_power]; decide) rfl rfl isShares_six41 (statement41 (w := 1) (h := []) (by decide)).satisfied
  corr_states
example := shamir_states41.imp fun _ h => C76_shamir_circom (M := GMsg) (G₂ := F41) (pub := [1, 36]) (1 : F41)
  params41_valid square41_wf (by rw [square41_power]; decide) rfl rfl isShamirs_sh6 roots41 h
example := shamir_states41.imp fun _ h => C76_shamir_libsnark (M := GMsg) (G₂ := F41) (pub := [1, 36]) (1 : F41)
  params41_valid square41_wf (by rw [square41_power]; decide) rfl rfl isShamirs_sh6
  (statement41 (w := 1) (h := []) (by decide)).satisfied h

example := C77_rep3_circom (M := GMsg) (J := GMsg) (x := 1) params41_valid (fits41 (w := 9) (h := [])) isShares_six41
  roots41 corr_states corr_states
example := C77_rep3_libsnark (M := GMsg) (J := GMsg) (x := 1) params41_valid (fits41 (w := 9) (h := []))
  isShares_six41 corr_states corr_states
example := shamir_states41.imp fun _ h => C77_shamir_circom (M := GMsg) (J := GMsg) (x := 1) (1 : F41) params41_valid
  (fits41 (w := 9) (h := [])) isShamirs_sh6 roots41 h h
example := shamir_states41.imp fun _ h => C77_shamir_libsnark (M := GMsg) (J := GMsg) (x := 1) (1 : F41) params41_valid
  (fits41 (w := 9) (h := [])) isShamirs_sh6 h h
example := shamir_states41.imp fun _ h => C77_bridge_circom (M := GMsg) (J := GMsg) (x := 1) (1 : F41) params41_valid
  points41 (fits41 (w := 9) (h := [])) isShares_six41 roots41 h h
example := shamir_states41.imp fun _ h => C77_bridge_libsnark (M := GMsg) (J := GMsg) (x := 1) (1 : F41) params41_valid
  points41 (fits41 (w := 9) (h := [])) isShares_six41 h h
example := C77_plain_circom (R := Nat) (M := GMsg) (J := GMsg) (x := 1) (st₀ := fun _ => 5) (st₁ := fun _ => 6)
  params41_valid (fits41 (w := 9) (h := []) (x := 6)) roots41
example := C77_plain_libsnark (R := Nat) (M := GMsg) (J := GMsg) (x := 1) (st₀ := fun _ => 5) (st₁ := fun _ => 6)
  params41_valid (fits41 (w := 9) (h := []) (x := 6))

example : FailsTwo (J := GMsg) (fun i => proveInner (circomWitnessMap params41 (rep3 (M := GMsg) F41 F41))
    (rep3 F41 F41) circomKey41 square41 [36] [six41 i]) states states
      (.err "amount of public inputs does not match with provided constraint system!") :=
  C77_public_inputs _ (by decide)
example : FailsTwo (J := GMsg) (fun _ => proveInner (circomWitnessMap params41 (rep3 (M := GMsg) F41 F41))
    (rep3 F41 F41) circomKey41 square41 [1, 36] []) states states
      (.err "amount of private witness variables does not match with provided constraint system!") :=
  C77_witness _ (by decide) (fun _ => by decide)
/-- A field with room for two points only. -/
example := C77_too_large (M := GMsg) (J := GMsg) (d := rep3 F41 F41) (pk := circomKey41) (m := square41) (pub := [1, 36])
  (wit := fun i => [six41 i]) (st₀ := states) (st₁ := states) (pr := { params41 with twoAdicity := 1 }) rfl
  (fun _ => rfl) (by rw [square41_power]; decide)

example : EnsuresTwo (M := GMsg) (J := GMsg)
    (fun i => proveInner (circomWitnessMap params41 (rep3 F41 F41)) (rep3 F41 F41) circomKey41 square41 [1, 36]
      [six41 i]) states states (fun πs _ _ => AllVerify pairing41 circomKey41 [36] πs) :=
  C78_rep3_circom (statement41 (by decide)) (by rw [square41_power]; decide) roots41 rfl isShares_six41 corr_states
    corr_states _
example : EnsuresTwo (M := GMsg) (J := GMsg)
    (fun i => proveInner (libsnarkWitnessMap params41 (rep3 F41 F41)) (rep3 F41 F41) libsnarkKey41 square41 [1, 36]
      [six41 i]) states states (fun πs _ _ => AllVerify pairing41 libsnarkKey41 [36] πs) :=
  C78_rep3_libsnark (statement41 (by decide)) (by rw [square41_power]; decide) rfl isShares_six41 corr_states
    corr_states _
example : ∃ st : Fin 3 → ShamirState 3 Nat F41, EnsuresTwo (M := GMsg) (J := GMsg)
    (fun i => proveInner (circomWitnessMap params41 (shamir F41 (1 : F41))) (shamir F41 1) circomKey41 square41
      [1, 36] [sh6 i]) st st (fun πs _ _ => AllVerify pairing41 circomKey41 [36] πs) :=
  shamir_states41.imp fun _ h => C78_shamir_circom 1 (statement41 (by decide)) (by rw [square41_power]; decide) roots41
    rfl isShamirs_sh6 h h _
example : ∃ st : Fin 3 → ShamirState 3 Nat F41, EnsuresTwo (M := GMsg) (J := GMsg)
    (fun i => proveInner (libsnarkWitnessMap params41 (shamir F41 (1 : F41))) (shamir F41 1) libsnarkKey41 square41
      [1, 36] [sh6 i]) st st (fun πs _ _ => AllVerify pairing41 libsnarkKey41 [36] πs) :=
  shamir_states41.imp fun _ h => C78_shamir_libsnark 1 (statement41 (by decide)) (by rw [square41_power]; decide) rfl
    isShamirs_sh6 h h _
example : ∃ st : Fin 3 → ShamirState 3 Nat F41, EnsuresTwo (M := GMsg) (J := GMsg)
    (fun i => proveWithShamirBridge (1 : F41) (circomWitnessMap params41 (shamir F41 (1 : F41))) circomKey41 square41
      [1, 36] [six41 (Bridge.party3 i)]) st st (fun πs _ _ => AllVerify pairing41 circomKey41 [36] πs) :=
  shamir_states41.imp fun _ h => C78_bridge_circom (1 : F41) points41 (statement41 (by decide))
    (by rw [square41_power]; decide) roots41 rfl isShares_six41 h h _
example : ∃ st : Fin 3 → ShamirState 3 Nat F41, EnsuresTwo (M := GMsg) (J := GMsg)
    (fun i => proveWithShamirBridge (1 : F41) (libsnarkWitnessMap params41 (shamir F41 (1 : F41))) libsnarkKey41 square41
      [1, 36] [six41 (Bridge.party3 i)]) st st (fun πs _ _ => AllVerify pairing41 libsnarkKey41 [36] πs) :=
  shamir_states41.imp fun _ h => C78_bridge_libsnark (1 : F41) points41 (statement41 (by decide))
    (by rw [square41_power]; decide) rfl isShares_six41 h h _

/-- The witnesses `6` and `35` for the public input `36`. -/
example := C79_circom (pk := circomKey41) (statement41 (x := 6) (by decide)) (statement41 (x := 35) (by decide))
  (by rw [square41_power]; decide) roots41 rfl
example := C79_libsnark (pk := libsnarkKey41) (statement41 (x := 6) (by decide)) (statement41 (x := 35) (by decide))
  (by rw [square41_power]; decide) rfl

end Verif.Props
