import Verif.Plonk.CompleteLemmas
import Verif.Groth16.RootLemmas

/-!
# Lemmas: the domains of the PLONK prover, and its reference
-/

namespace Verif.Plonk

open Groth16 (FftParams squares squares_length squares_reverse_get squares_primitive find_terminates trace_primitive)

section Domains

variable {p : Nat} [Fact p.Prime] {pr : FftParams (ZMod p)}

theorem domains_new (h : pr.Valid) {q : ZMod p} {roots : List (ZMod p)} (hr : Groth16.rootsOfUnity pr = some (q, roots)) {k : Nat}
    (hk : k + 2 ≤ pr.twoAdicity) :
    ∃ dom, Domains.new pr (2 ^ k) = .ok dom ∧ dom.Ok ∧ dom.size = 2 ^ k ∧ dom.root = roots.getD k 0 ∧
      dom.root4 = roots.getD (k + 2) 0 := by
  obtain ⟨q', h1, h2, h3⟩ := find_terminates h.modulus h.odd
  have hz := trace_primitive h.odd h2 h3 h.order h.trace
  have hr' : Groth16.rootsOfUnity pr = some (q', (squares (q' ^ pr.trace) pr.twoAdicity).reverse) := by
    simp only [Groth16.rootsOfUnity, h1]; rfl
  obtain ⟨rfl, hroots⟩ : q = q' ∧ roots = (squares (q' ^ pr.trace) pr.twoAdicity).reverse := by
    rw [hr] at hr'
    simpa using hr'
  have get : ∀ j ≤ pr.twoAdicity, roots[j]? = some ((q ^ pr.trace) ^ 2 ^ (pr.twoAdicity - j)) := fun j hj => by
    rw [hroots]; exact squares_reverse_get _ _ hj
  have hpos : 0 < 2 ^ k := by positivity
  have hnew : Domains.new pr (2 ^ k) = .ok ⟨2 ^ k, (q ^ pr.trace) ^ 2 ^ (pr.twoAdicity - k),
      (q ^ pr.trace) ^ 2 ^ (pr.twoAdicity - (k + 2)), (q ^ pr.trace) ^ 2 ^ (pr.twoAdicity - 2)⟩ := by
    rw [Domains.new, if_neg (by
      rw [Nat.and_two_pow_sub_one_eq_mod, Nat.mod_self]
      simp), Nat.log2_two_pow, if_neg (by omega), hr]
    simp only [get k (by omega), get (k + 2) hk, get 2 (by omega)]
  refine ⟨_, hnew, ⟨hpos, ?_, ?_, ?_, ?_⟩, rfl, ?_, ?_⟩
  · have := squares_primitive hz hk
    simpa [pow_succ, mul_assoc] using this
  · simp only []
    generalize q ^ pr.trace = ζ
    rw [← pow_mul, show (4 : Nat) = 2 ^ 2 from rfl, ← pow_add]
    congr 2; omega
  · simp only []
    generalize q ^ pr.trace = ζ
    rw [← pow_mul, ← pow_add]
    congr 2; omega
  · rw [Nat.cast_mul, Nat.cast_pow]
    have h2 : ((2 : Nat) : ZMod p) ≠ 0 := by
      intro h0
      have hd := (ZMod.natCast_eq_zero_iff 2 p).1 h0
      have := Nat.le_of_dvd (by omega) hd
      have h4 := (Fact.out : p.Prime).two_le
      have h5 := h.odd
      have : p = 2 := by omega
      omega
    have h4 : ((4 : Nat) : ZMod p) ≠ 0 := by
      rw [show (4 : Nat) = 2 * 2 from rfl, Nat.cast_mul]
      exact mul_ne_zero h2 h2
    exact mul_ne_zero (pow_ne_zero _ h2) h4
  · rw [List.getD_eq_getElem?_getD, get k (by omega)]; rfl
  · rw [List.getD_eq_getElem?_getD, get (k + 2) hk]; rfl

variable {G H T : Type} [AddCommGroup G] [Module (ZMod p) G] [AddCommGroup H] [Module (ZMod p) H] [AddCommGroup T]
  [Module (ZMod p) T] [DecidableEq T]

theorem proveReference_verify (h : pr.Valid) {q : ZMod p} {roots : List (ZMod p)}
    (hr : Groth16.rootsOfUnity pr = some (q, roots)) {key : Zkey (ZMod p) G H} (hk : key.pow + 2 ≤ pr.twoAdicity)
    (hw : key.WellFormed) (hp : key.PolysValid (roots.getD key.pow 0) (roots.getD (key.pow + 2) 0)) {τ : ZMod p} {g₁ : G} {g₂ : H}
    (hs : key.SetupValid τ g₁ g₂) {inputs wit z : List (ZMod p)} (hf : key.Fits inputs wit)
    (hz : key.IsAssignment inputs wit z) (hsat : key.Satisfied (roots.getD key.pow 0) z) (hash : List (ZMod p ⊕ G) → ZMod p)
    (x : ZMod p) {b : List (ZMod p)} (hb : b.length = 11) (e : G →ₗ[ZMod p] H →ₗ[ZMod p] T) {proof : Proof (ZMod p) G}
    (hproof : proveReference hash pr key (x :: inputs) wit b = .ok proof) :
    verify hash pr (fun P Q => e P Q) g₁ g₂ key.vk proof inputs = .ok () := by
  obtain ⟨dom, d1, d2, d3, d4, d5⟩ := domains_new h hr hk
  rw [← hw.size] at d1 d3
  obtain ⟨adds, a1, a2, a3, a4⟩ := calculateAdditions_ok hw hf
  rw [proveReference, zeroFirst, ok_bind, a1, ok_bind, d1, ok_bind] at hproof
  rw [← d4, ← d5] at hp
  rw [← d4, a4 z hz] at hsat
  exact prove_verify d2 d3 hw hp hash hf a2 hs hsat hb pr d1 e hproof

variable {key : Zkey (ZMod p) G H} {w w4 τ : ZMod p} {g₁ : G} {g₂ : H} {inputs wit z : List (ZMod p)}

theorem Statement.get (h : Statement pr key w w4 τ g₁ g₂ inputs wit z) : ∃ q roots,
    Groth16.rootsOfUnity pr = some (q, roots) ∧ key.pow + 2 ≤ pr.twoAdicity ∧ w = roots.getD key.pow 0 ∧
      w4 = roots.getD (key.pow + 2) 0 := by
  obtain ⟨q, roots, h1, h2, h3⟩ := h.roots
  refine ⟨q, roots, h1, ?_, by rw [List.getD_eq_getElem?_getD, h2]; rfl, by rw [List.getD_eq_getElem?_getD, h3]; rfl⟩
  obtain ⟨q', f1, -, -⟩ := find_terminates h.valid.modulus h.valid.odd
  have e : Groth16.rootsOfUnity pr = some (q', (squares (q' ^ pr.trace) pr.twoAdicity).reverse) := by
    simp only [Groth16.rootsOfUnity, f1]; rfl
  rw [e] at h1
  obtain ⟨rfl, rfl⟩ : q' = q ∧ (squares (q' ^ pr.trace) pr.twoAdicity).reverse = roots := by simpa using h1
  have := List.getElem?_eq_some_iff.1 h3
  obtain ⟨hl, -⟩ := this
  rw [List.length_reverse, squares_length] at hl
  omega

theorem Statement.domains (h : Statement pr key w w4 τ g₁ g₂ inputs wit z) :
    ∃ dom, Domains.new pr key.domainSize = .ok dom ∧ dom.Ok ∧ dom.size = key.domainSize ∧ dom.root = w ∧ dom.root4 = w4 := by
  obtain ⟨q, roots, h1, h2, rfl, rfl⟩ := h.get
  rw [h.wf.size]
  exact domains_new h.valid h1 h2

theorem Statement.verify (h : Statement pr key w w4 τ g₁ g₂ inputs wit z) (hash : List (ZMod p ⊕ G) → ZMod p)
    (x : ZMod p) {b : List (ZMod p)} (hb : b.length = 11) (e : G →ₗ[ZMod p] H →ₗ[ZMod p] T) {proof : Proof (ZMod p) G}
    (hproof : proveReference hash pr key (x :: inputs) wit b = .ok proof) :
    verify hash pr (fun P Q => e P Q) g₁ g₂ key.vk proof inputs = .ok () := by
  obtain ⟨q, roots, h1, h2, rfl, rfl⟩ := h.get
  exact proveReference_verify h.valid h1 h2 h.wf h.polys h.setup h.fits h.assignment h.satisfied hash x hb e hproof

/-- What the prover does before it draws random values. -/
theorem Statement.start (h : Statement pr key w w4 τ g₁ g₂ inputs wit z) : ∃ dom adds, Domains.new pr key.domainSize = .ok dom ∧
    dom.Ok ∧ dom.size = key.domainSize ∧ dom.root = w ∧ dom.root4 = w4 ∧
    calculateAdditions (fun x => x) key (0 :: inputs) wit key.additions [] = .ok adds ∧ adds.length = key.nAdditions ∧
    z = 0 :: inputs ++ wit ++ adds := by
  obtain ⟨dom, d1, d2, d3, d4, d5⟩ := h.domains
  obtain ⟨adds, a1, a2, a3, a4⟩ := calculateAdditions_ok h.wf h.fits
  exact ⟨dom, adds, d1, d2, d3, d4, d5, a1, a2, a4 z h.assignment⟩

theorem Statement.ok (h : Statement pr key w w4 τ g₁ g₂ inputs wit z) (x : ZMod p) {b : List (ZMod p)} (hb : b.length = 11) :
    ∃ q : Queries (ZMod p) G, ∀ hash, ¬ q.Exceptional key w z hash →
      ∃ proof, proveReference hash pr key (x :: inputs) wit b = .ok proof := by
  obtain ⟨dom, adds, d1, d2, d3, d4, d5, a1, a2, a3⟩ := h.start
  refine ⟨queriesOf key dom τ g₁ inputs z b, fun hash hg => ?_⟩
  rw [proveReference, zeroFirst, ok_bind, a1, ok_bind, d1, ok_bind]
  have hp := h.polys
  have hsat := h.satisfied
  rw [← d4, ← d5] at hp
  rw [← d4, a3] at hsat hg
  exact prove_ok d2 d3 h.wf hp h.setup hash h.fits a2 hsat hb hg

end Domains

end Verif.Plonk
