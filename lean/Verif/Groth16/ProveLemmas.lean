import Verif.Groth16.DriverLemmas

/-!
# Lemmas: the prover computes the Groth16 proof; the quotient polynomial
-/

namespace Verif.Groth16

open MPC (bail panicWith)
open Polynomial

/-! ## The quotient -/

section Quotient

variable {F : Type} [Field F]

theorem qap_eval {m : Matrices F} {w : F} (hw : IsPrimitiveRoot w (2 ^ m.power)) {z : List F} (hz : m.Satisfied z)
    {j : Nat} (hj : j < 2 ^ m.power) : (m.qap w z).eval (w ^ j) = 0 := by
  simp only [Matrices.qap, eval_sub, eval_mul, interp_eval hw _ hj]
  by_cases h : j < m.numConstraints
  · simp only [Matrices.valueA, Matrices.valueB, Matrices.valueC, if_pos h, hz j h, sub_self]
  · simp only [Matrices.valueB, Matrices.valueC, if_neg h, mul_zero, sub_self]

theorem monic_vanish (n : Nat) (hn : n ≠ 0) : (X ^ n - 1 : F[X]).Monic := by
  simpa using monic_X_pow_sub_C (1 : F) hn

theorem qap_quotient {m : Matrices F} {w : F} (hw : IsPrimitiveRoot w (2 ^ m.power)) {z : List F}
    (hz : m.Satisfied z) :
    (X ^ 2 ^ m.power - 1) * (m.qap w z /ₘ (X ^ 2 ^ m.power - 1)) = m.qap w z := by
  have hmon := monic_vanish (F := F) (2 ^ m.power) (by positivity)
  have h := modByMonic_add_div (m.qap w z) (X ^ 2 ^ m.power - 1)
  have h0 : m.qap w z %ₘ (X ^ 2 ^ m.power - 1) = 0 := by
    refine Polynomial.eq_zero_of_degree_lt_of_eval_index_eq_zero (s := Finset.range (2 ^ m.power))
      (v := fun j => w ^ j) ?_ ?_ ?_
    · intro i hi j hj h
      exact hw.pow_inj (by simpa using hi) (by simpa using hj) h
    · have := degree_modByMonic_lt (m.qap w z) hmon
      have hd : (X ^ 2 ^ m.power - 1 : F[X]).degree = (2 ^ m.power : Nat) := by
        simpa using degree_X_pow_sub_C (by positivity : 0 < 2 ^ m.power) (1 : F)
      rw [hd] at this
      rwa [Finset.card_range]
    · intro j hj
      have e := congrArg (eval (w ^ j)) h
      rw [qap_eval hw hz (Finset.mem_range.1 hj)] at e
      have e1 : (w ^ j) ^ 2 ^ m.power = 1 := by rw [← pow_mul, Nat.mul_comm, pow_mul, hw.pow_eq_one, one_pow]
      simpa [e1] using e
  rw [h0, zero_add] at h
  exact h

theorem qap_degree {m : Matrices F} {w : F} (hw : IsPrimitiveRoot w (2 ^ m.power)) (z : List F) :
    (m.qap w z).natDegree ≤ 2 * 2 ^ m.power - 2 := by
  have h1 : ∀ v : Nat → F, (interp (2 ^ m.power) w v).natDegree ≤ 2 ^ m.power - 1 := by
    intro v
    have h := interp_degree hw v
    by_cases h0 : interp (2 ^ m.power) w v = 0
    · simp [h0]
    · have := (natDegree_lt_iff_degree_lt h0).2 h
      omega
  refine (natDegree_sub_le _ _).trans (max_le ?_ ?_)
  · refine natDegree_mul_le.trans ?_
    have := h1 (m.valueA z)
    have := h1 (m.valueB z)
    omega
  · have := h1 (m.valueC z)
    have : 0 < 2 ^ m.power := by positivity
    omega

theorem quotient_degree {m : Matrices F} {w : F} (hw : IsPrimitiveRoot w (2 ^ m.power)) {z : List F}
    (hz : m.Satisfied z) : (m.qap w z /ₘ (X ^ 2 ^ m.power - 1)).degree < (2 ^ m.power - 1 : Nat) := by
  by_cases h0 : m.qap w z /ₘ (X ^ 2 ^ m.power - 1) = 0
  · rw [h0, degree_zero]; exact WithBot.bot_lt_coe _
  · rw [← natDegree_lt_iff_degree_lt h0]
    have hmon := monic_vanish (F := F) (2 ^ m.power) (by positivity)
    have h := congrArg natDegree (qap_quotient hw hz)
    rw [hmon.natDegree_mul' h0] at h
    have hd : (X ^ 2 ^ m.power - 1 : F[X]).natDegree = 2 ^ m.power := by
      simpa using natDegree_X_pow_sub_C (n := 2 ^ m.power) (r := (1 : F))
    have := qap_degree hw z
    have : 0 < 2 ^ m.power := by positivity
    omega

theorem libsnarkH_quotient {m : Matrices F} {w : F} (hw : IsPrimitiveRoot w (2 ^ m.power)) {z : List F}
    (hz : m.Satisfied z) {g : F} (hg : g ^ 2 ^ m.power ≠ 1) (hg0 : g ≠ 0) :
    m.libsnarkH w g z = coefficients m (m.qap w z /ₘ (X ^ 2 ^ m.power - 1)) := by
  set q := m.qap w z /ₘ (X ^ 2 ^ m.power - 1) with hq
  have hdeg : q.degree < (2 ^ m.power : Nat) :=
    (quotient_degree hw hz).trans_le (by exact_mod_cast Nat.sub_le _ _)
  have hi : interp (2 ^ m.power) w (fun j => (m.qap w z).eval (g * w ^ j) / (g ^ 2 ^ m.power - 1)) =
      q.comp (C g * X) := by
    refine (Lagrange.eq_interpolate_of_eval_eq (s := Finset.range (2 ^ m.power)) (v := fun j => w ^ j) _ ?_ ?_ ?_).symm
    · intro i hi j hj h
      exact hw.pow_inj (by simpa using hi) (by simpa using hj) h
    · rw [Finset.card_range]; exact degree_comp_scale_lt hdeg g
    · intro j hj
      have e := congrArg (eval (g * w ^ j)) (qap_quotient hw hz)
      have e1 : (w ^ j) ^ 2 ^ m.power = 1 := by rw [← pow_mul, Nat.mul_comm, pow_mul, hw.pow_eq_one, one_pow]
      simp only [eval_mul, eval_sub, eval_pow, eval_X, eval_one, mul_pow, e1, mul_one] at e
      rw [← e, mul_div_cancel_left₀ _ (sub_ne_zero.2 hg)]
      simp [hq]
  simp only [Matrices.libsnarkH, hi, coefficients]
  refine List.map_congr_left fun i _ => ?_
  rw [coeff_comp_scale, mul_div_cancel_right₀ _ (pow_ne_zero _ hg0)]

end Quotient

/-! ## The proof -/

section Prove

variable {ι S M J F A G₁ G₂ : Type} [DecidableEq ι] [Fintype ι] [Field F] [AddCommGroup G₁]
  [Module F G₁] [AddCommGroup G₂] [Module F G₂] [Zero A] [Add A] [SMul F A] {d : Driver ι S M F A G₁ G₂}
  {I : (ι → S) → Prop} {P : (ι → A) → F → Prop} {H : (ι → F) → F → Prop} {H₁ : (ι → G₁) → G₁ → Prop}
  {H₂ : (ι → G₂) → G₂ → Prop} {Mul : Nat → (ι → S) → (ι → S) → Prop} {Rand : (ι → S) → F → (ι → S) → Prop}

theorem spec₂_orPanic_bind {α β : Type} {x : ι → Option α} {s : ι → α} {st₀ st₁ : ι → S}
    {f : ι → α → MPC₂ ι S M J β} {Q : (ι → β) → (ι → S) → (ι → S) → Prop} (h : ∀ i, x i = some (s i))
    (h' : Spec₂ (fun i => f i (s i)) st₀ st₁ Q) :
    Spec₂ (fun i => MPC₂.first (orPanic (x i)) >>= f i) st₀ st₁ Q :=
  Spec₂.bind (Spec₂.first (Q := fun r t₀ t₁ => r = s ∧ t₀ = st₀ ∧ t₁ = st₁)
    (spec_orPanic h ⟨rfl, rfl, rfl⟩)) fun _ _ _ e => by
    obtain ⟨rfl, rfl, rfl⟩ := e; exact h'

theorem msm_half {V : Type} [AddCommGroup V] [Module F V] {K : (ι → V) → V → Prop} (h0 : K (fun _ => 0) 0)
    (hadd : ∀ x y v w, K x v → K y w → K (fun i => x i + y i) (v + w))
    (hpoint : ∀ (x : ι → F) v (Q : V), H x v → K (fun i => x i • Q) (v • Q)) (points : List V) {aux : ι → List F}
    {ws : List F} (h : Cols H aux ws) :
    K (fun i => Rep3.Point.msm points (aux i)) (combine points ws) := by
  obtain ⟨l, rfl, hl⟩ := h
  induction points generalizing l ws with
  | nil => simpa [Rep3.Point.msm, combine] using h0
  | cons Q points ih =>
    cases hl with
    | nil => simpa [Rep3.Point.msm, combine] using h0
    | @cons x v l ws hx hl =>
      have := hadd _ _ _ _ (hpoint x v Q hx) (ih _ hl)
      simpa [Rep3.Point.msm, combine] using this

theorem combine_cons {V : Type} [AddCommGroup V] [Module F V] (q : V) (query : List V) (inputs ws : List F)
    (h : inputs.length ≤ query.length) :
    combine (q :: query) ((1 : F) :: inputs ++ ws) =
      q + combine (query.take inputs.length) inputs + combine (query.drop inputs.length) ws := by
  have e : List.zipWith (fun p (s : F) => s • p) query (inputs ++ ws) =
      List.zipWith (fun p (s : F) => s • p) (query.take inputs.length) inputs ++
      List.zipWith (fun p (s : F) => s • p) (query.drop inputs.length) ws := by
    rw [← List.zipWith_append (by simpa using h), List.take_append_drop]
  simp [combine, e, add_assoc]

theorem calculateCoeff_half {V : Type} [AddCommGroup V] [Module F V] {K : (ι → V) → V → Prop}
    (h0 : K (fun _ => 0) 0) (hadd : ∀ x y v w, K x v → K y w → K (fun i => x i + y i) (v + w))
    (hpoint : ∀ (x : ι → F) v (Q : V), H x v → K (fun i => x i • Q) (v • Q)) {add : ι → V → V → V}
    (hpub : ∀ x v q, K x v → K (fun i => add i (x i) q) (v + q)) {aux : ι → List F}
    {ws : List F} (h : Cols H aux ws) {init : ι → V} {v : V} (hi : K init v) (query : List V) (vk : V)
    (inputs : List F) (hq : inputs.length < query.length) :
    ∃ s, (∀ i, calculateCoeff (add i) (init i) query vk inputs (aux i) = some (s i)) ∧
      K s (vk + combine query ((1 : F) :: inputs ++ ws) + v) := by
  cases query with
  | nil => simp at hq
  | cons q query =>
    have hq' : inputs.length ≤ query.length := by simpa [Nat.lt_succ_iff] using hq
    have hn : ¬ query.length + 1 < 1 + inputs.length := by omega
    have hmsm := msm_half h0 hadd hpoint (query.drop inputs.length) h
    have hk := hadd _ _ _ _ (hpub _ _ (Rep3.Point.msm (query.take inputs.length) inputs) (hpub _ _ vk (hpub _ _ q hi)))
      hmsm
    refine ⟨fun i => add i (add i (add i (init i) q) vk) (Rep3.Point.msm (query.take inputs.length) inputs) +
      Rep3.Point.msm (query.drop inputs.length) (aux i), fun i => ?_, ?_⟩
    swap
    · rw [combine_cons q query inputs ws hq']
      refine cast ?_ hk
      congr 1
      simp only [Rep3.Point.msm, combine]
      abel
    · simp [calculateCoeff, Nat.add_comm 1, hq']

variable (D : DriverSpec d I P H H₁ H₂ Mul Rand)

include D

theorem spec_createProof [Codec J G₁] [Codec J G₂] (pk : ProvingKey G₁ G₂) {r s : ι → A} {ρ σ : F} (hr : P r ρ)
    (hs : P s σ) {h : ι → List F} {hv : List F} (hh : Cols H h hv) {aux : ι → List F} {ws : List F}
    (ha : Cols H aux ws) (x : F) (inputs : List F) (hqa : inputs.length < pk.aQuery.length)
    (hqb : inputs.length < pk.bG1Query.length) (hqc : inputs.length < pk.bG2Query.length) {st₀ st₁ : ι → S}
    (h₀ : I st₀) (h₁ : I st₁) :
    Spec₂ (M := M) (J := J) (fun i => createProof d pk (r i) (s i) (h i) (x :: inputs) (aux i)) st₀ st₁
      (fun p s₀ s₁ => (p = fun _ => proofFor pk (1 :: inputs ++ ws) (inputs.length + 1) hv ρ σ) ∧ I s₀ ∧ I s₁) := by
  unfold createProof
  refine Spec₂.bind (Spec₂.first (Q := fun v t₀ t₁ => (v = fun i => i) ∧ t₀ = st₀ ∧ t₁ = st₁)
    (Spec.netId ⟨rfl, rfl, rfl⟩)) ?_
  rintro _ _ _ ⟨rfl, rfl, rfl⟩
  refine spec₂_orPanic_bind (s := fun _ => inputs) (fun i => rfl) ?_
  have hr' := D.toHalf _ _ hr
  have hs' := D.toHalf _ _ hs
  obtain ⟨gA, hgA, hA⟩ := calculateCoeff_half D.zero1 D.add1 D.point1 D.addPublicG1 ha (D.point1 _ _ pk.deltaG1 hr')
    pk.aQuery pk.alphaG1 inputs hqa
  obtain ⟨gB, hgB, hB⟩ := calculateCoeff_half D.zero1 D.add1 D.point1 D.addPublicG1 ha (D.point1 _ _ pk.deltaG1 hs')
    pk.bG1Query pk.betaG1 inputs hqb
  obtain ⟨gB₂, hgB₂, hB₂⟩ := calculateCoeff_half D.zero2 D.add2 D.point2 D.addPublicG2 ha
    (D.point2 _ _ pk.deltaG2 hs') pk.bG2Query pk.betaG2 inputs hqc
  refine spec₂_orPanic_bind hgA ?_
  refine spec₂_orPanic_bind hgB ?_
  refine spec₂_orPanic_bind hgB₂ ?_
  have hl := msm_half D.zero1 D.add1 D.point1 pk.lQuery ha
  have hhq := msm_half D.zero1 D.add1 D.point1 pk.hQuery hh
  refine Spec₂.bind (Spec₂.first (Q := fun v t₀ t₁ => Cols H v [ρ * σ] ∧ I t₀ ∧ I t₁)
    ((D.localMulVec (Cols.cons hr Cols.nil) (Cols.cons hs Cols.nil) rfl h₀).mono fun v t hv =>
      ⟨hv.1, hv.2.1, h₁⟩)) ?_
  rintro rs t₀ t₁ ⟨⟨l, rfl, hl'⟩, h₀, h₁⟩
  cases hl' with
  | @cons rs _ l _ hrs hnil =>
  cases hnil
  refine spec₂_orPanic_bind (s := rs) (fun i => by simp) ?_
  refine Spec₂.bind (Spec₂.join (Q := fun v s₀ s₁ => (∃ rb, (v = fun i => (pk.alphaG1 +
      combine pk.aQuery (1 :: inputs ++ ws) + ρ • pk.deltaG1, rb i)) ∧
      H₁ rb (ρ • (pk.betaG1 + combine pk.bG1Query (1 :: inputs ++ ws) + σ • pk.deltaG1))) ∧ I s₀ ∧ I s₁)
    ((D.openHalfG1 hA h₀).mono ?_)) ?_
  · rintro v s₀ ⟨rfl, hs₀⟩
    refine (D.scalarMul hB hr h₁).mono ?_
    rintro v s₁ ⟨hv, hs₁⟩
    exact ⟨⟨v, rfl, hv⟩, hs₀, hs₁⟩
  rintro v s₀ s₁ ⟨⟨rb, rfl, hrb⟩, hs₀, hs₁⟩
  have hC := D.add1 _ _ _ _ (D.add1 _ _ _ _ (D.sub1 _ _ _ _ (D.add1 _ _ _ _
    (D.point1 _ _ (pk.alphaG1 + combine pk.aQuery (1 :: inputs ++ ws) + ρ • pk.deltaG1) hs') hrb)
    (D.point1 _ _ pk.deltaG1 hrs)) hl) hhq
  refine Spec₂.bind (Spec₂.join (Q := fun v s₀ s₁ => (v = fun _ =>
      (σ • (pk.alphaG1 + combine pk.aQuery (1 :: inputs ++ ws) + ρ • pk.deltaG1) +
        ρ • (pk.betaG1 + combine pk.bG1Query (1 :: inputs ++ ws) + σ • pk.deltaG1) - (ρ * σ) • pk.deltaG1 +
        combine pk.lQuery ws + combine pk.hQuery hv,
       pk.betaG2 + combine pk.bG2Query (1 :: inputs ++ ws) + σ • pk.deltaG2)) ∧ I s₀ ∧ I s₁)
    ((D.openHalfG1 hC hs₀).mono ?_)) ?_
  · rintro v s₀ ⟨rfl, hs₀⟩
    refine (D.openHalfG2 hB₂ hs₁).mono ?_
    rintro v s₁ ⟨rfl, hs₁⟩
    exact ⟨rfl, hs₀, hs₁⟩
  rintro v s₀ s₁ ⟨rfl, hs₀, hs₁⟩
  refine Spec₂.pure ⟨?_, hs₀, hs₁⟩
  funext i
  simp only [proofFor, Proof.mk.injEq, true_and]
  rw [show (1 :: inputs ++ ws).drop (inputs.length + 1) = ws by simp]
  abel

theorem spec_proveInner [Codec J G₁] [Codec J G₂]
    {witnessMap : Matrices F → List F → List A → MPC ι S M Err (List F)} (pk : ProvingKey G₁ G₂) {m : Matrices F}
    {x : F} {inputs : List F} {wit : ι → List A} {ws hv : List F} {st₀ st₁ : ι → S} {T : (ι → S) → Prop}
    (hw : Cols P wit ws) (hp : inputs.length + 1 = m.numInstance) (hl : ws.length = m.numWitness)
    (hmap : Spec (fun i => witnessMap m (x :: inputs) (wit i)) st₀ (fun r st' => Cols H r hv ∧ I st' ∧ T st'))
    (hqa : m.numInstance ≤ pk.aQuery.length) (hqb : m.numInstance ≤ pk.bG1Query.length)
    (hqc : m.numInstance ≤ pk.bG2Query.length) (h₁ : I st₁) :
    Spec₂ (M := M) (J := J) (fun i => proveInner witnessMap d pk m (x :: inputs) (wit i)) st₀ st₁ (fun p s₀ s₁ =>
      (∃ r s t t₁ t₂, T t ∧ Rand t r t₁ ∧ Rand t₁ s t₂ ∧
        p = fun _ => proofFor pk (1 :: inputs ++ ws) m.numInstance hv r s) ∧ I s₀ ∧ I s₁) := by
  have e : ∀ i, (wit i).length = m.numWitness := fun i => by rw [hw.length, hl]
  simp only [proveInner, List.length_cons, hp, e, ne_eq, not_true_eq_false, if_false]
  refine Spec₂.bind (Spec₂.first (Q := fun v t₀ t₁ => Cols H v hv ∧ I t₀ ∧ T t₀ ∧ I t₁)
    (hmap.mono fun v t h => ⟨h.1, h.2.1, h.2.2, h₁⟩)) ?_
  rintro h t₀ t₁ ⟨hh, h₀, hT, h₁⟩
  refine Spec₂.bind (Spec₂.first (Q := fun v s₀ s₁ => ∃ ρ, P v ρ ∧ I s₀ ∧ Rand t₀ ρ s₀ ∧ I s₁)
    ((D.rand h₀).mono fun v t h => by obtain ⟨ρ, a, b, c⟩ := h; exact ⟨ρ, a, b, c, h₁⟩)) ?_
  rintro r u₀ u₁ ⟨ρ, hr, h₀, hR, h₁⟩
  refine Spec₂.bind (Spec₂.first (Q := fun v s₀ s₁ => ∃ σ, P v σ ∧ I s₀ ∧ Rand u₀ σ s₀ ∧ I s₁)
    ((D.rand h₀).mono fun v t h => by obtain ⟨ρ, a, b, c⟩ := h; exact ⟨ρ, a, b, c, h₁⟩)) ?_
  rintro s v₀ v₁ ⟨σ, hs, h₀, hS, h₁⟩
  have haux : Cols H (fun i => (wit i).map d.toHalf) (ws.map id) :=
    Cols.map (f := fun _ => d.toHalf) hw fun y v hv => D.toHalf y v hv
  rw [List.map_id] at haux
  refine (spec_createProof D pk hr hs hh haux x inputs (by omega) (by omega) (by omega) h₀ h₁).mono ?_
  rintro p s₀ s₁ ⟨rfl, h₀, h₁⟩
  exact ⟨⟨ρ, σ, _, _, _, hT, hR, hS, by rw [hp]⟩, h₀, h₁⟩

end Prove

end Verif.Groth16
