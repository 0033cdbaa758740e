import Verif.Plonk.DomainLemmas
import Verif.Spec.PlonkSound
import Mathlib.Algebra.Polynomial.Roots
import Mathlib.Algebra.Polynomial.Degree.Lemmas
import Mathlib.Tactic.ComputeDegree

/-!
# Lemmas: the verifier only accepts true statements
-/

namespace Verif.Plonk

open Polynomial Finset
open Groth16 (interp interp_degree interp_eval)

variable {F G H T : Type} [Field F]

/-! ### The polynomials of the rounds -/

/-- The Lagrange polynomial of gate `j`. -/
noncomputable def lagr (n : Nat) (ω : F) (j : Nat) : F[X] := interp n ω fun i => if i = j then 1 else 0

/-- The polynomial of the public inputs. -/
noncomputable def pubPoly (c : Circuit F) (ω : F) (pub : List F) : F[X] :=
  -∑ j ∈ range c.nPublic, C (pub.getD j 0) * lagr c.size ω j

/-- The equation of the gates. -/
noncomputable def gatePoly (c : Circuit F) (ω : F) (pub : List F) (s : Sent1 F) : F[X] :=
  c.qm * s.a * s.b + c.ql * s.a + c.qr * s.b + c.qo * s.c + c.qc + pubPoly c ω pub

/-- The factor for the wires. -/
noncomputable def numPoly (c : Circuit F) (β γ : F) (s : Sent1 F) : F[X] :=
  (s.a + C β * X + C γ) * (s.b + C β * X * C c.k1 + C γ) * (s.c + C β * X * C c.k2 + C γ)

/-- The factor for the permuted wires. -/
noncomputable def denPoly (c : Circuit F) (β γ : F) (s : Sent1 F) : F[X] :=
  (s.a + C β * c.s1 + C γ) * (s.b + C β * c.s2 + C γ) * (s.c + C β * c.s3 + C γ)

/-- The equation of the permutation. -/
noncomputable def permPoly (c : Circuit F) (ω : F) (s : Sent2 F) : F[X] :=
  numPoly c s.β s.γ s.toSent1 * s.z - denPoly c s.β s.γ s.toSent1 * s.z.comp (C ω * X)

/-- The equation of the first value. -/
noncomputable def startPoly (n : Nat) (ω : F) (s : Sent2 F) : F[X] := lagr n ω 0 * (s.z - 1)

/-- All equations together. -/
noncomputable def quotPoly (c : Circuit F) (ω : F) (pub : List F) (s : Sent3 F) : F[X] :=
  gatePoly c ω pub s.toSent1 + C s.α * permPoly c ω s.toSent2 + C (s.α ^ 2) * startPoly c.size ω s.toSent2
    - (s.t1 + X ^ c.size * s.t2 + X ^ (2 * c.size) * s.t3) * (X ^ c.size - 1)

/-- The linearisation polynomial. -/
noncomputable def linPoly (c : Circuit F) (ω : F) (pub : List F) (s : Sent4 F) : F[X] :=
  let l0 := (lagr c.size ω 0).eval s.ξ
  let e := s.evals
  let xin := s.ξ ^ c.size
  C ((e.a + s.β * s.ξ + s.γ) * (e.b + s.β * s.ξ * c.k1 + s.γ) * (e.c + s.β * s.ξ * c.k2 + s.γ) * s.α + s.α ^ 2 * l0) * s.z
    + (C (e.a * e.b) * c.qm + C e.a * c.ql + C e.b * c.qr + C e.c * c.qo + c.qc
      - C ((e.a + s.β * e.s1 + s.γ) * (e.b + s.β * e.s2 + s.γ) * e.zw * s.α * s.β) * c.s3)
    - C (xin - 1) * (s.t1 + C xin * s.t2 + C (xin ^ 2) * s.t3)
    + C ((pubPoly c ω pub).eval s.ξ - (e.a + s.β * e.s1 + s.γ) * (e.b + s.β * e.s2 + s.γ) * e.zw * s.α * (e.c + s.γ)
      - s.α ^ 2 * l0)

/-- What is opened at `ξ`. -/
noncomputable def openPoly (c : Circuit F) (ω : F) (pub : List F) (s : Sent5 F) : F[X] :=
  linPoly c ω pub s.toSent4 + C s.v * (s.a - C s.evals.a) + C (s.v ^ 2) * (s.b - C s.evals.b) + C (s.v ^ 3) * (s.c - C s.evals.c)
    + C (s.v ^ 4) * (c.s1 - C s.evals.s1) + C (s.v ^ 5) * (c.s2 - C s.evals.s2)

/-- The difference of the two sides of the check. -/
noncomputable def checkPoly (c : Circuit F) (ω : F) (pub : List F) (s : Sent5 F) (u : F) : F[X] :=
  (X - C s.ξ) * s.w + C u * ((X - C (s.ξ * ω)) * s.ww) - (openPoly c ω pub s + C u * (s.z - C s.evals.zw))

/-! ### The lucky sets -/

section Sets

variable [DecidableEq F]

/-- The roots of a polynomial that is not zero. -/
noncomputable def luckyRoots (p : F[X]) : Finset F := p.roots.toFinset

theorem luckyRoots_card {p : F[X]} {k : Nat} (h : p.natDegree ≤ k) : (luckyRoots p).card ≤ k :=
  (Multiset.toFinset_card_le _).trans ((card_roots' p).trans h)

theorem eq_zero_of_unlucky {p : F[X]} {x : F} (h : p.eval x = 0) (hx : x ∉ luckyRoots p) : p = 0 := by
  by_contra h0
  exact hx (Multiset.mem_toFinset.2 ((mem_roots h0).2 h))

noncomputable def luckyβ (c : Circuit F) (ω : F) (σ : Equiv.Perm c.Wire) (s : Sent1 F) : Finset F :=
  Finset.univ.image fun x : c.Wire × c.Wire =>
    (s.wires c ω x.2 - s.wires c ω x.1) / (c.label ω x.1 - c.label ω (σ x.2))

noncomputable def gammaPoly (c : Circuit F) (ω : F) (σ : Equiv.Perm c.Wire) (s : Sent1 F) (β : F) : F[X] :=
  ∏ x : c.Wire, (X + C (s.wires c ω x + β * c.label ω x)) - ∏ x : c.Wire, (X + C (s.wires c ω x + β * c.label ω (σ x)))

noncomputable def alphaPoly (c : Circuit F) (ω : F) (pub : List F) (s : Sent2 F) (i : Nat) : F[X] :=
  C ((gatePoly c ω pub s.toSent1).eval (ω ^ i)) + C ((permPoly c ω s).eval (ω ^ i)) * X
    + C ((startPoly c.size ω s).eval (ω ^ i)) * X ^ 2

noncomputable def vPoly (c : Circuit F) (ω : F) (pub : List F) (s : Sent4 F) : F[X] :=
  C ((linPoly c ω pub s).eval s.ξ) + C (s.a.eval s.ξ - s.evals.a) * X + C (s.b.eval s.ξ - s.evals.b) * X ^ 2
    + C (s.c.eval s.ξ - s.evals.c) * X ^ 3 + C (c.s1.eval s.ξ - s.evals.s1) * X ^ 4 + C (c.s2.eval s.ξ - s.evals.s2) * X ^ 5

noncomputable def uPoly1 (c : Circuit F) (ω : F) (pub : List F) (s : Sent5 F) : F[X] :=
  C ((s.ξ * ω - s.ξ) * s.w.eval (s.ξ * ω) - (openPoly c ω pub s).eval (s.ξ * ω)) - C (s.z.eval (s.ξ * ω) - s.evals.zw) * X

noncomputable def uPoly2 (c : Circuit F) (ω : F) (pub : List F) (s : Sent5 F) : F[X] :=
  C (-(openPoly c ω pub s).eval s.ξ) + C ((s.ξ - s.ξ * ω) * s.ww.eval s.ξ - (s.z.eval s.ξ - s.evals.zw)) * X

theorem card_wire (c : Circuit F) : Fintype.card c.Wire = 3 * c.size := by
  rw [Fintype.card_prod, Fintype.card_fin]; rfl

theorem luckyβ_card (c : Circuit F) (ω : F) (σ : Equiv.Perm c.Wire) (s : Sent1 F) : (luckyβ c ω σ s).card ≤ 9 * c.size ^ 2 := by
  refine card_image_le.trans ?_
  rw [card_univ, Fintype.card_prod, card_wire]
  exact le_of_eq (by ring)

theorem natDegree_prod_linear {ι : Type} [Fintype ι] (f : ι → F) : (∏ x : ι, (X + C (f x))).natDegree ≤ Fintype.card ι := by
  refine (natDegree_prod_le _ _).trans ?_
  refine (sum_le_card_nsmul _ _ 1 fun x _ => ?_).trans (by simp)
  exact (natDegree_X_add_C _).le

theorem gammaPoly_natDegree (c : Circuit F) (ω : F) (σ : Equiv.Perm c.Wire) (s : Sent1 F) (β : F) :
    (gammaPoly c ω σ s β).natDegree ≤ 3 * c.size := by
  rw [← card_wire c]
  rw [gammaPoly]
  exact (natDegree_sub_le _ _).trans (max_le (natDegree_prod_linear _) (natDegree_prod_linear _))

theorem alphaPoly_natDegree (c : Circuit F) (ω : F) (pub : List F) (s : Sent2 F) (i : Nat) :
    (alphaPoly c ω pub s i).natDegree ≤ 2 := by
  rw [alphaPoly]; compute_degree

theorem vPoly_natDegree (c : Circuit F) (ω : F) (pub : List F) (s : Sent4 F) : (vPoly c ω pub s).natDegree ≤ 5 := by
  rw [vPoly]; compute_degree

theorem uPoly1_natDegree (c : Circuit F) (ω : F) (pub : List F) (s : Sent5 F) : (uPoly1 c ω pub s).natDegree ≤ 1 := by
  rw [uPoly1]; compute_degree

theorem uPoly2_natDegree (c : Circuit F) (ω : F) (pub : List F) (s : Sent5 F) : (uPoly2 c ω pub s).natDegree ≤ 1 := by
  rw [uPoly2]; compute_degree

end Sets

/-! ### Degrees -/

section Degrees

variable {c : Circuit F} {ω : F} {σ : Equiv.Perm c.Wire} {d : Nat} (hω : IsPrimitiveRoot ω c.size)

include hω in
theorem lagr_natDegree (j : Nat) : (lagr c.size ω j).natDegree ≤ c.size :=
  natDegree_le_of_degree_le (interp_degree hω _).le

include hω in
theorem pubPoly_natDegree (pub : List F) : (pubPoly c ω pub).natDegree ≤ c.size := by
  rw [pubPoly, natDegree_neg]
  refine natDegree_sum_le_of_forall_le _ _ fun j _ => ?_
  exact (natDegree_C_mul_le _ _).trans (lagr_natDegree hω j)

theorem natDegree_le₂ {p q : F[X]} {k l m : Nat} (hp : p.natDegree ≤ k) (hq : q.natDegree ≤ l) (h : k + l ≤ m) :
    (p * q).natDegree ≤ m := (natDegree_mul_le_of_le hp hq).trans h

theorem natDegree_add₂ {p q : F[X]} {m : Nat} (hp : p.natDegree ≤ m) (hq : q.natDegree ≤ m) : (p + q).natDegree ≤ m :=
  natDegree_add_le_of_degree_le hp hq

theorem natDegree_sub₂ {p q : F[X]} {m : Nat} (hp : p.natDegree ≤ m) (hq : q.natDegree ≤ m) : (p - q).natDegree ≤ m :=
  (natDegree_sub_le _ _).trans (max_le hp hq)

theorem natDegree_c {x : F} {m : Nat} : (C x : F[X]).natDegree ≤ m := by rw [natDegree_C]; exact Nat.zero_le _

theorem natDegree_comp_le' {p : F[X]} {m : Nat} (h : p.natDegree ≤ m) (x : F) : (p.comp (C x * X)).natDegree ≤ m := by
  refine natDegree_comp_le.trans ((Nat.mul_le_mul h ((natDegree_C_mul_le _ _).trans natDegree_X_le)).trans (by omega))

include hω in
theorem quotPoly_natDegree (hc : c.Valid ω σ d) (hd : 1 ≤ d) (pub : List F) {s : Sent3 F} (hs : s.Below d) :
    (quotPoly c ω pub s).natDegree ≤ 4 * d + 3 * c.size := by
  have h := hc.degree
  simp only [List.mem_cons, List.not_mem_nil, or_false, forall_eq_or_imp, forall_eq] at h
  obtain ⟨h1, h2, h3, h4, h5, h6, h7, h8⟩ := h
  rw [Sent3.Below] at hs
  simp only [List.mem_cons, List.not_mem_nil, or_false, forall_eq_or_imp, forall_eq] at hs
  obtain ⟨s1, s2, s3, s4, s5, s6, s7⟩ := hs
  have hpub := pubPoly_natDegree (c := c) hω pub
  have hlin : ∀ {p : F[X]} {x y : F}, p.natDegree ≤ d → (p + C x * X + C y).natDegree ≤ d := fun hp =>
    natDegree_add₂ (natDegree_add₂ hp ((natDegree_C_mul_le _ _).trans (natDegree_X_le.trans hd))) natDegree_c
  have hlin' : ∀ {p : F[X]} {x y k : F}, p.natDegree ≤ d → (p + C x * X * C k + C y).natDegree ≤ d := fun hp =>
    natDegree_add₂ (natDegree_add₂ hp ((natDegree_mul_C_le _ _).trans ((natDegree_C_mul_le _ _).trans (natDegree_X_le.trans hd))))
      natDegree_c
  have hsig : ∀ {p q : F[X]} {x y : F}, p.natDegree ≤ d → q.natDegree ≤ d → (p + C x * q + C y).natDegree ≤ d := fun hp hq =>
    natDegree_add₂ (natDegree_add₂ hp ((natDegree_C_mul_le _ _).trans hq)) natDegree_c
  have hx : ∀ k : Nat, (X ^ k : F[X]).natDegree ≤ k := fun k => natDegree_X_pow_le k
  rw [quotPoly]
  refine natDegree_sub₂ (natDegree_add₂ (natDegree_add₂ ?_ ?_) ?_) ?_
  · rw [gatePoly]
    refine natDegree_add₂ (natDegree_add₂ (natDegree_add₂ (natDegree_add₂ (natDegree_add₂ ?_ ?_) ?_) ?_) ?_) (by omega)
    · exact natDegree_le₂ (natDegree_le₂ h1 s1 le_rfl) s2 (by omega)
    · exact natDegree_le₂ h2 s1 (by omega)
    · exact natDegree_le₂ h3 s2 (by omega)
    · exact natDegree_le₂ h4 s3 (by omega)
    · omega
  · refine (natDegree_C_mul_le _ _).trans ?_
    rw [permPoly, numPoly, denPoly]
    refine natDegree_sub₂ ?_ ?_
    · exact natDegree_le₂ (natDegree_le₂ (natDegree_le₂ (hlin s1) (hlin' s2) le_rfl) (hlin' s3) le_rfl) s4 (by omega)
    · exact natDegree_le₂ (natDegree_le₂ (natDegree_le₂ (hsig s1 h6) (hsig s2 h7) le_rfl) (hsig s3 h8) le_rfl)
        (natDegree_comp_le' s4 ω) (by omega)
  · refine (natDegree_C_mul_le _ _).trans ?_
    rw [startPoly]
    refine natDegree_le₂ (lagr_natDegree hω 0) (natDegree_sub₂ s4 ?_) (by omega)
    rw [natDegree_one]; omega
  · refine natDegree_le₂ (k := 2 * c.size + d) (l := c.size) ?_ ?_ (by omega)
    · refine natDegree_add₂ (natDegree_add₂ (by omega) (natDegree_le₂ (hx _) s6 (by omega))) (natDegree_le₂ (hx _) s7 (by omega))
    · refine natDegree_sub₂ (hx _) ?_
      rw [natDegree_one]; omega

theorem checkPoly_natDegree (hc : c.Valid ω σ d) (pub : List F) {s : Sent5 F} (hs : s.Below d) (u : F) :
    (checkPoly c ω pub s u).natDegree ≤ d + 1 := by
  have h := hc.degree
  simp only [List.mem_cons, List.not_mem_nil, or_false, forall_eq_or_imp, forall_eq] at h
  obtain ⟨h1, h2, h3, h4, h5, h6, h7, h8⟩ := h
  obtain ⟨hs, s8, s9⟩ := hs
  rw [Sent3.Below] at hs
  simp only [List.mem_cons, List.not_mem_nil, or_false, forall_eq_or_imp, forall_eq] at hs
  obtain ⟨s1, s2, s3, s4, s5, s6, s7⟩ := hs
  have hC : ∀ {p : F[X]} {x : F}, p.natDegree ≤ d → (C x * p).natDegree ≤ d := fun hp => (natDegree_C_mul_le _ _).trans hp
  have hsub : ∀ {p : F[X]} {x : F}, p.natDegree ≤ d → (p - C x).natDegree ≤ d := fun hp => natDegree_sub₂ hp natDegree_c
  have hX : ∀ x : F, (X - C x : F[X]).natDegree ≤ 1 := fun x => natDegree_X_sub_C_le x
  have hlin : (linPoly c ω pub s.toSent4).natDegree ≤ d := by
    rw [linPoly]
    refine natDegree_add₂ (natDegree_sub₂ (natDegree_add₂ (hC s4) (natDegree_sub₂ (natDegree_add₂ (natDegree_add₂ (natDegree_add₂
      (natDegree_add₂ (hC h1) (hC h2)) (hC h3)) (hC h4)) h5) (hC h8))) (hC (natDegree_add₂ (natDegree_add₂ s5 (hC s6)) (hC s7))))
      natDegree_c
  have hopen : (openPoly c ω pub s).natDegree ≤ d := by
    rw [openPoly]
    exact natDegree_add₂ (natDegree_add₂ (natDegree_add₂ (natDegree_add₂ (natDegree_add₂ hlin (hC (hsub s1))) (hC (hsub s2)))
      (hC (hsub s3))) (hC (hsub h6))) (hC (hsub h7))
  rw [checkPoly]
  refine natDegree_sub₂ (natDegree_add₂ (natDegree_le₂ (hX _) s8 (by omega))
    ((natDegree_C_mul_le _ _).trans (natDegree_le₂ (hX _) s9 (by omega)))) ?_
  exact (natDegree_add₂ hopen (hC (hsub s4))).trans (by omega)

end Degrees

/-! ### The argument -/

section Argument

variable [DecidableEq F] {c : Circuit F} {ω : F} {σ : Equiv.Perm c.Wire} {d : Nat} {pub : List F}

theorem coeff_zero_of {p : F[X]} (h : p = 0) (k : Nat) : p.coeff k = 0 := by rw [h, coeff_zero]

/-- Round 5: the claimed evaluations are right and the linearisation polynomial vanishes. -/
theorem opened {s : Sent5 F} {u : F} (h : checkPoly c ω pub s u = 0) (h1 : u ∉ luckyRoots (uPoly1 c ω pub s))
    (h2 : u ∉ luckyRoots (uPoly2 c ω pub s)) (hv : s.v ∉ luckyRoots (vPoly c ω pub s.toSent4)) :
    s.evals = ⟨s.a.eval s.ξ, s.b.eval s.ξ, s.c.eval s.ξ, c.s1.eval s.ξ, c.s2.eval s.ξ, s.z.eval (s.ξ * ω)⟩ ∧
      (linPoly c ω pub s.toSent4).eval s.ξ = 0 := by
  have e1 : (uPoly1 c ω pub s).eval u = 0 := by
    have := congrArg (eval (s.ξ * ω)) h
    simp only [checkPoly, uPoly1, eval_add, eval_sub, eval_mul, eval_C, eval_X, eval_zero] at this ⊢
    linear_combination this
  have e2 : (uPoly2 c ω pub s).eval u = 0 := by
    have := congrArg (eval s.ξ) h
    simp only [checkPoly, uPoly2, eval_add, eval_sub, eval_mul, eval_C, eval_X, eval_zero] at this ⊢
    linear_combination this
  have z1 := coeff_zero_of (eq_zero_of_unlucky e1 h1) 1
  have z2 := coeff_zero_of (eq_zero_of_unlucky e2 h2) 0
  simp only [uPoly1, coeff_sub, coeff_C_mul, coeff_X_one, mul_one, coeff_C_succ, zero_sub, neg_eq_zero] at z1
  simp only [uPoly2, coeff_add, coeff_C_mul, coeff_X_zero, mul_zero, coeff_C_zero, add_zero, neg_eq_zero] at z2
  have ev : (vPoly c ω pub s.toSent4).eval s.v = 0 := by
    simp only [openPoly, vPoly, eval_add, eval_sub, eval_mul, eval_C, eval_X, eval_pow] at z2 ⊢
    linear_combination z2
  have hz := eq_zero_of_unlucky ev hv
  have c0 := coeff_zero_of hz 0
  have c1 := coeff_zero_of hz 1
  have c2 := coeff_zero_of hz 2
  have c3 := coeff_zero_of hz 3
  have c4 := coeff_zero_of hz 4
  have c5 := coeff_zero_of hz 5
  simp only [vPoly, coeff_add, coeff_C_mul, coeff_X, coeff_X_pow, coeff_C] at c0 c1 c2 c3 c4 c5
  norm_num at c0 c1 c2 c3 c4 c5
  refine ⟨?_, c0⟩
  obtain ⟨s4, v, w, ww⟩ := s
  obtain ⟨s3, ξ, ⟨⟩⟩ := s4
  simp only [Evals.mk.injEq]
  exact ⟨(sub_eq_zero.1 c1).symm, (sub_eq_zero.1 c2).symm, (sub_eq_zero.1 c3).symm, (sub_eq_zero.1 c4).symm, (sub_eq_zero.1 c5).symm,
    (sub_eq_zero.1 z1).symm⟩

/-- Round 4: the equations hold at `ξ`. -/
theorem quotient_at {s : Sent4 F} (h : (linPoly c ω pub s).eval s.ξ = 0)
    (he : s.evals = ⟨s.a.eval s.ξ, s.b.eval s.ξ, s.c.eval s.ξ, c.s1.eval s.ξ, c.s2.eval s.ξ, s.z.eval (s.ξ * ω)⟩) :
    (quotPoly c ω pub s.toSent3).eval s.ξ = 0 := by
  simp only [linPoly, he, eval_add, eval_sub, eval_mul, eval_C] at h
  simp only [quotPoly, gatePoly, permPoly, numPoly, denPoly, startPoly, eval_add, eval_sub, eval_mul, eval_C, eval_X, eval_pow,
    eval_one, eval_comp]
  rw [mul_comm ω s.ξ]
  linear_combination h

/-- Round 3: each equation holds on the domain. -/
theorem on_domain (hω : IsPrimitiveRoot ω c.size) {s : Sent3 F} (h : quotPoly c ω pub s = 0)
    (hα : ∀ i < c.size, s.α ∉ luckyRoots (alphaPoly c ω pub s.toSent2 i)) {i : Nat} (hi : i < c.size) :
    (gatePoly c ω pub s.toSent1).eval (ω ^ i) = 0 ∧ (permPoly c ω s.toSent2).eval (ω ^ i) = 0 ∧
      (startPoly c.size ω s.toSent2).eval (ω ^ i) = 0 := by
  have e : (alphaPoly c ω pub s.toSent2 i).eval s.α = 0 := by
    have := congrArg (eval (ω ^ i)) h
    have hone : (ω ^ i) ^ c.size = 1 := by rw [← pow_mul, mul_comm, pow_mul, hω.pow_eq_one, one_pow]
    simp only [quotPoly, eval_add, eval_sub, eval_mul, eval_C, eval_X, eval_pow, eval_one, hone, sub_self, mul_zero, sub_zero,
      eval_zero] at this
    simp only [alphaPoly, eval_add, eval_mul, eval_C, eval_X, eval_pow]
    linear_combination this
  have hz := eq_zero_of_unlucky e (hα i hi)
  have c0 := coeff_zero_of hz 0
  have c1 := coeff_zero_of hz 1
  have c2 := coeff_zero_of hz 2
  simp [alphaPoly, coeff_X, coeff_X_pow, coeff_C] at c0 c1 c2
  exact ⟨c0, c1, c2⟩

theorem lagr_eval (hω : IsPrimitiveRoot ω c.size) (j : Nat) {i : Nat} (hi : i < c.size) :
    (lagr c.size ω j).eval (ω ^ i) = if i = j then 1 else 0 := interp_eval hω _ hi

/-- The two products agree. -/
theorem products (hω : IsPrimitiveRoot ω c.size) {s : Sent2 F}
    (hp : ∀ i < c.size, (permPoly c ω s).eval (ω ^ i) = 0) (h0 : (startPoly c.size ω s).eval (ω ^ 0) = 0) :
    ∏ i ∈ range c.size, (numPoly c s.β s.γ s.toSent1).eval (ω ^ i) =
      ∏ i ∈ range c.size, (denPoly c s.β s.γ s.toSent1).eval (ω ^ i) := by
  have hn : 0 < c.size := Nat.two_pow_pos _
  have z0 : s.z.eval (ω ^ 0) = 1 := by
    rw [startPoly, eval_mul, lagr_eval hω 0 hn, if_pos rfl, one_mul, eval_sub, eval_one] at h0
    exact sub_eq_zero.1 h0
  have key : ∀ k ≤ c.size, s.z.eval (ω ^ k) * ∏ i ∈ range k, (denPoly c s.β s.γ s.toSent1).eval (ω ^ i) =
      ∏ i ∈ range k, (numPoly c s.β s.γ s.toSent1).eval (ω ^ i) := by
    intro k hk
    induction k with
    | zero => rw [z0]; simp
    | succ k ih =>
      have := hp k (by omega)
      rw [permPoly, eval_sub, eval_mul, eval_mul, eval_comp, eval_mul, eval_C, eval_X, ← pow_succ'] at this
      rw [prod_range_succ, prod_range_succ, ← ih (by omega)]
      linear_combination -(∏ i ∈ range k, (denPoly c s.β s.γ s.toSent1).eval (ω ^ i)) * this
  have := key c.size le_rfl
  rw [hω.pow_eq_one, ← pow_zero ω, z0, one_mul] at this
  exact this.symm

/-- Rounds 1 and 2: the copy constraints hold. -/
theorem copies (hc : c.Valid ω σ d) {s : Sent1 F} {β γ : F}
    (h : ∏ i ∈ range c.size, (numPoly c β γ s).eval (ω ^ i) = ∏ i ∈ range c.size, (denPoly c β γ s).eval (ω ^ i))
    (hβ : β ∉ luckyβ c ω σ s) (hγ : γ ∉ luckyRoots (gammaPoly c ω σ s β)) (x : c.Wire) :
    s.wires c ω (σ x) = s.wires c ω x := by
  have hA := hc.sigma
  have e : (gammaPoly c ω σ s β).eval γ = 0 := by
    rw [gammaPoly, eval_sub, eval_prod, eval_prod, sub_eq_zero]
    simp only [eval_add, eval_X, eval_C]
    rw [prod_column, prod_column, prod_range, prod_range] at *
    refine Eq.trans ?_ (h.trans ?_) <;> refine prod_congr rfl fun i _ => ?_
    · simp only [numPoly, Sent1.wires, Circuit.label, eval_add, eval_mul, eval_C, eval_X]
      ring
    · have h1 := hA (.a, i)
      have h2 := hA (.b, i)
      have h3 := hA (.c, i)
      simp only [Circuit.sigma] at h1 h2 h3
      simp only [denPoly, Sent1.wires, eval_add, eval_mul, eval_C, h1, h2, h3]
      ring
  have hz := eq_zero_of_unlucky e hγ
  -- every name with its value occurs on the other side
  have hocc : ∀ y : c.Wire, ∃ x : c.Wire, s.wires c ω x + β * c.label ω (σ x) = s.wires c ω y + β * c.label ω y := by
    intro y
    have := congrArg (eval (-(s.wires c ω y + β * c.label ω y))) hz
    rw [gammaPoly, eval_sub, eval_prod, eval_prod, eval_zero] at this
    rw [prod_eq_zero (i := y) (mem_univ _) (by simp), zero_sub, neg_eq_zero] at this
    obtain ⟨x, _, hx⟩ := prod_eq_zero_iff.1 this
    simp only [eval_add, eval_X, eval_C] at hx
    exact ⟨x, by linear_combination hx⟩
  obtain ⟨y, hy⟩ := hocc (σ x)
  have hname : c.label ω (σ x) = c.label ω (σ y) := by
    by_contra hne
    refine hβ (mem_image.2 ⟨(σ x, y), mem_univ _, ?_⟩)
    have hne' : c.label ω (σ x) - c.label ω (σ y) ≠ 0 := sub_ne_zero.2 hne
    rw [div_eq_iff hne']
    linear_combination hy
  rw [hname] at hy
  have hxy := σ.injective (hc.names hname)
  rw [← hxy] at hy
  exact (add_right_cancel hy).symm

/-- The gates hold. -/
theorem gates (hω : IsPrimitiveRoot ω c.size) {s : Sent1 F} (h : ∀ i < c.size, (gatePoly c ω pub s).eval (ω ^ i) = 0)
    (i : Fin c.size) : c.qm.eval (ω ^ i.1) * s.wires c ω (.a, i) * s.wires c ω (.b, i)
      + c.ql.eval (ω ^ i.1) * s.wires c ω (.a, i) + c.qr.eval (ω ^ i.1) * s.wires c ω (.b, i)
      + c.qo.eval (ω ^ i.1) * s.wires c ω (.c, i) + c.qc.eval (ω ^ i.1) =
        if i.1 < c.nPublic then pub.getD i.1 0 else 0 := by
  have hpub : (pubPoly c ω pub).eval (ω ^ i.1) = -if i.1 < c.nPublic then pub.getD i.1 0 else 0 := by
    rw [pubPoly, eval_neg, eval_finsetSum]
    congr 1
    simp only [eval_mul, eval_C, lagr_eval hω _ i.2, mul_ite, mul_one, mul_zero, sum_ite_eq, mem_range]
  have := h i.1 i.2
  simp only [gatePoly, eval_add, eval_mul, hpub] at this
  simp only [Sent1.wires]
  linear_combination this

end Argument

/-! ### The check of the verifier -/

section Check

variable [DecidableEq F] [AddCommGroup G] [Module F G] [AddCommGroup H] [Module F H] [AddCommGroup T] [Module F T] [DecidableEq T]
  {c : Circuit F} {dom : Domains F}

omit [AddCommGroup G] [Module F G] [AddCommGroup H] [Module F H] [AddCommGroup T] [Module F T] [DecidableEq T] in
theorem lagrange_values (hd : dom.Ok) (hsz : dom.size = c.size) (hle : c.nPublic ≤ c.size) {ξ : F} {l : List F × F}
    (h : lagrangeEvaluations c.power c.nPublic ξ dom = .ok l) {pub : List F} (hpub : pub.length = c.nPublic) :
    l.2 = ξ ^ c.size ∧ l.1.getD 0 0 = (lagr c.size dom.root 0).eval ξ ∧ calculatePi pub l.1 = (pubPoly c dom.root pub).eval ξ := by
  have hω : IsPrimitiveRoot dom.root c.size := by rw [← hsz]; exact hd.prim
  have hn : 0 < c.size := Nat.two_pow_pos _
  rw [lagrangeEvaluations] at h
  cases hl : lagrangeLoop ξ (ξ ^ 2 ^ c.power - 1) ((2 ^ c.power : Nat) : F) dom.root (max 1 c.nPublic) 1 with
  | error e => rw [hl] at h; cases h
  | ok r =>
    rw [hl] at h
    have h : Except.ok (r, ξ ^ 2 ^ c.power) = Except.ok (ε := Err) l := h
    simp only [Except.ok.injEq] at h
    subst h
    obtain ⟨h1, h2⟩ := lagrangeLoop_eq _ _ _ _ _ _ hl
    have hval : ∀ j < max 1 c.nPublic, r.getD j 0 = (lagr c.size dom.root j).eval ξ := by
      intro j hj
      obtain ⟨h3, h4⟩ := h2 j hj
      rw [one_mul] at h3 h4
      have hjn : j < c.size := hj.trans_le (max_le hn hle)
      have := lagrange_eval hn hω (by rw [← hsz]; exact hd.ne') (interp_degree hω _) hjn (fun i hi => lagr_eval hω j hi) ξ
      exact mul_right_cancel₀ h3 (h4.trans this.symm)
    refine ⟨rfl, hval 0 (by omega), ?_⟩
    rw [calculatePi_eq _ _ (by rw [h1, hpub]; omega), pubPoly, eval_neg, eval_finsetSum, hpub]
    congr 1
    refine sum_congr rfl fun j hj => ?_
    have hj := mem_range.1 hj
    rw [eval_mul, eval_C, hval j (by omega), mul_comm]

/-- The verifier checks the polynomial identity at the secret. -/
theorem check_at (hd : dom.Ok) (hsz : dom.size = c.size) (hle : c.nPublic ≤ c.size) {pr : Groth16.FftParams F}
    (hnew : ∀ dom', Domains.new pr c.size = .ok dom' → dom' = dom) {τ : F} {g₁ : G} {g₂ : H} (e : G →ₗ[F] H →ₗ[F] T)
    (he : e g₁ g₂ ≠ 0) {hash : List (F ⊕ G) → F} {s : Sent5 F} {pub : List F}
    (hs : s.Hashed hash (c.vk τ g₁ g₂) (s.proof τ g₁) pub)
    (h : verify hash pr (fun P Q => e P Q) g₁ g₂ (c.vk τ g₁ g₂) (s.proof τ g₁) pub = .ok ()) :
    pub.length = c.nPublic ∧
      (checkPoly c dom.root pub s (hash [.inr (s.proof τ g₁).wxi, .inr (s.proof τ g₁).wxiw])).eval τ = 0 := by
  have hch : verifierChallenges hash (c.vk τ g₁ g₂) (s.proof τ g₁) pub = ⟨s.β, s.γ, s.α, s.ξ, s.v⟩ := by
    rw [verifierChallenges]
    simp only [challengeβ, challengeγ, challengeα, challengeξ, challengeV, ← hs.β, ← hs.γ, ← hs.α, ← hs.ξ, ← hs.v]
  rw [verify] at h
  by_cases hl : (c.vk τ g₁ g₂).nPublic = pub.length
  swap
  · rw [if_pos hl] at h; cases h
  have hl' : c.nPublic = pub.length := hl
  refine ⟨hl'.symm, ?_⟩
  simp only [hl, ne_eq, not_true_eq_false, if_false, hch, challengeU] at h
  generalize hash [.inr (s.proof τ g₁).wxi, .inr (s.proof τ g₁).wxiw] = u at h ⊢
  have hpow : (2 ^ (c.vk τ g₁ g₂).power : Nat) = c.size := rfl
  rw [hpow] at h
  cases hn : Domains.new pr c.size with
  | error e => rw [hn] at h; cases h
  | ok dom' =>
    obtain rfl := hnew dom' hn
    rw [hn] at h
    simp only [ok_bind, pure_bind] at h
    rw [← hl'] at h
    have hpow : (c.vk τ g₁ g₂).power = c.power := rfl
    rw [hpow] at h
    cases hlag : lagrangeEvaluations c.power c.nPublic s.ξ dom' with
    | error e => rw [hlag] at h; cases h
    | ok l =>
      rw [hlag] at h
      simp only [ok_bind] at h
      obtain ⟨l1, l2, l3⟩ := lagrange_values hd hsz hle hlag hl'.symm
      split_ifs at h with hpair
      simp only [calculateE, calculateF, calculateR0D, Circuit.vk, Sent5.proof, l1, l2, l3] at hpair
      have e1 : ∀ (x : F) (y : F), e (x • g₁) (y • g₂) = (y * x) • e g₁ g₂ := fun x y => by
        rw [map_smul, map_smul, LinearMap.smul_apply, smul_smul]
      have e2 : ∀ (x : F), e (x • g₁) g₂ = x • e g₁ g₂ := fun x => by rw [map_smul, LinearMap.smul_apply]
      simp only [smul_smul, ← add_smul, ← sub_smul, smul_add] at hpair
      rw [e1, e2, ← sub_eq_zero, ← sub_smul, smul_eq_zero] at hpair
      have := hpair.resolve_right he
      simp only [checkPoly, openPoly, linPoly, eval_add, eval_sub, eval_mul, eval_C, eval_X]
      linear_combination this

end Check

/-! ### Soundness -/

section Sound

variable [DecidableEq F] {c : Circuit F} {ω : F} {σ : Equiv.Perm c.Wire} {d : Nat}

/-- The lucky challenges. -/
noncomputable def lucky (hω : IsPrimitiveRoot ω c.size) (hc : c.Valid ω σ d) (hd : 1 ≤ d) (pub : List F) : Lucky F c.size d where
  β := luckyβ c ω σ
  γ s β := luckyRoots (gammaPoly c ω σ s β)
  α s := (range c.size).biUnion fun i => luckyRoots (alphaPoly c ω pub s i)
  ξ s := luckyRoots (quotPoly c ω pub s)
  v s := luckyRoots (vPoly c ω pub s)
  u s := luckyRoots (uPoly1 c ω pub s) ∪ luckyRoots (uPoly2 c ω pub s)
  τ s u := luckyRoots (checkPoly c ω pub s u)
  β_card := luckyβ_card c ω σ
  γ_card s β := luckyRoots_card (gammaPoly_natDegree c ω σ s β)
  α_card s := by
    refine (card_biUnion_le_card_mul _ _ 2 fun i _ => luckyRoots_card (alphaPoly_natDegree c ω pub s i)).trans ?_
    rw [card_range, mul_comm]
  ξ_card s hs := luckyRoots_card (quotPoly_natDegree hω hc hd pub hs)
  v_card s := luckyRoots_card (vPoly_natDegree c ω pub s)
  u_card s := (card_union_le _ _).trans
    (add_le_add (luckyRoots_card (uPoly1_natDegree c ω pub s)) (luckyRoots_card (uPoly2_natDegree c ω pub s)))
  τ_card s u hs := luckyRoots_card (checkPoly_natDegree hc pub hs u)

theorem lucky_or_holds (hω : IsPrimitiveRoot ω c.size) (hc : c.Valid ω σ d) (hd : 1 ≤ d) (pub : List F) {s : Sent5 F} {u τ : F}
    (h : (checkPoly c ω pub s u).eval τ = 0) :
    (lucky hω hc hd pub).Hit s u τ ∨ c.Holds ω σ pub (s.wires c ω) := by
  rw [or_iff_not_imp_left]
  intro hno
  simp only [Lucky.Hit, lucky, not_or, mem_union, mem_biUnion, mem_range, not_exists, not_and] at hno
  obtain ⟨hβ, hγ, hα, hξ, hv, ⟨hu1, hu2⟩, hτ⟩ := hno
  obtain ⟨e1, e2⟩ := opened (eq_zero_of_unlucky h hτ) hu1 hu2 hv
  have hq := eq_zero_of_unlucky (quotient_at e2 e1) hξ
  have hdom := fun i (hi : i < c.size) => on_domain hω hq hα hi
  have hprod := products hω (fun i hi => (hdom i hi).2.1) (hdom 0 (Nat.two_pow_pos _)).2.2
  exact ⟨gates hω fun i hi => (hdom i hi).1, copies hc hprod hβ hγ⟩

end Sound

section Prime

variable {p : Nat} [Fact p.Prime] [AddCommGroup G] [Module (ZMod p) G] [AddCommGroup H] [Module (ZMod p) H] [AddCommGroup T]
  [Module (ZMod p) T] [DecidableEq T] {pr : Groth16.FftParams (ZMod p)}

omit [AddCommGroup G] [Module (ZMod p) G] [AddCommGroup H] [Module (ZMod p) H] [AddCommGroup T] [Module (ZMod p) T] [DecidableEq T] in
theorem domains_large {k : Nat} (hk : pr.twoAdicity < k + 2) (dom : Domains (ZMod p)) : Domains.new pr (2 ^ k) ≠ .ok dom := by
  intro h
  rw [Domains.new] at h
  split_ifs at h with h1 h2
  rw [Nat.log2_two_pow] at h2
  exact h2 hk

theorem sound (hpr : pr.Valid) {c : Circuit (ZMod p)} {ω : ZMod p} {σ : Equiv.Perm c.Wire} {d : Nat}
    (hr : ∃ q roots, Groth16.rootsOfUnity pr = some (q, roots) ∧ roots[c.power]? = some ω) (hc : c.Valid ω σ d) (hd : 1 ≤ d)
    (pub : List (ZMod p)) : ∃ L : Lucky (ZMod p) c.size d, ∀ (τ : ZMod p) (g₁ : G) (g₂ : H) (e : G →ₗ[ZMod p] H →ₗ[ZMod p] T),
      e g₁ g₂ ≠ 0 → ∀ (hash : List (ZMod p ⊕ G) → ZMod p) (s : Sent5 (ZMod p)),
      s.Hashed hash (c.vk τ g₁ g₂) (s.proof τ g₁) pub →
      verify hash pr (fun P Q => e P Q) g₁ g₂ (c.vk τ g₁ g₂) (s.proof τ g₁) pub = .ok () →
      pub.length = c.nPublic ∧ (L.Hit s (hash [.inr (s.proof τ g₁).wxi, .inr (s.proof τ g₁).wxiw]) τ ∨
        c.Holds ω σ pub (s.wires c ω)) := by
  obtain ⟨q, roots, hr, hω⟩ := hr
  by_cases hk : c.power + 2 ≤ pr.twoAdicity
  · obtain ⟨dom, d1, d2, d3, d4, d5⟩ := domains_new hpr hr hk
    have hroot : dom.root = ω := by rw [d4, List.getD_eq_getElem?_getD, hω]; rfl
    have hprim : IsPrimitiveRoot ω c.size := by rw [← hroot, Circuit.size, ← d3]; exact d2.prim
    refine ⟨lucky hprim hc hd pub, fun τ g₁ g₂ e he hash s hs h => ?_⟩
    obtain ⟨h1, h2⟩ := check_at (dom := dom) d2 d3 hc.publicLe (fun dom' h' => (Except.ok.inj (d1.symm.trans h')).symm) e he hs h
    rw [hroot] at h2
    exact ⟨h1, lucky_or_holds hprim hc hd pub h2⟩
  · refine ⟨⟨fun _ => ∅, fun _ _ => ∅, fun _ => ∅, fun _ => ∅, fun _ => ∅, fun _ => ∅, fun _ _ => ∅, by simp, by simp, by simp,
      by simp, by simp, by simp, by simp⟩, fun τ g₁ g₂ e he hash s hs h => ?_⟩
    exfalso
    rw [verify] at h
    by_cases hl : (c.vk τ g₁ g₂).nPublic = pub.length
    swap
    · rw [if_pos hl] at h; cases h
    simp only [hl, ne_eq, not_true_eq_false, if_false] at h
    have hpow : (c.vk τ g₁ g₂).power = c.power := rfl
    rw [hpow] at h
    cases hn : Domains.new pr (2 ^ c.power) with
    | error e => rw [hn] at h; cases h
    | ok dom => exact domains_large (by omega) dom hn

end Prime

/-! ### The circuit of a proving key -/

section Key

variable {key : Zkey F G H}

theorem polyOf_eq (l : List F) : polyOf l = ofList l := by
  induction l with
  | nil => rfl
  | cons a l ih => rw [polyOf, List.foldr_cons, ofList, ← ih, polyOf]

theorem polyOf_eval (l : List F) (x : F) : (polyOf l).eval x = polyValue l x := by rw [polyOf_eq, polyValue_eq]

theorem polyOf_natDegree {l : List F} {n : Nat} (h : l.length ≤ n) : (polyOf l).natDegree ≤ n := by
  rw [polyOf_eq]
  exact natDegree_le_of_degree_le ((ofList_degree l).le.trans (by exact_mod_cast h))

theorem key_vk [AddCommGroup G] [Module F G] [AddCommGroup H] [Module F H] {τ : F} {g₁ : G} {g₂ : H} (hw : key.WellFormed)
    (hs : key.SetupValid τ g₁ g₂) : key.vk = key.circuit.vk τ g₁ g₂ := by
  have h1 := hs.qm
  have h2 := hs.ql
  have h3 := hs.qr
  have h4 := hs.qo
  have h5 := hs.qc
  have h6 := hs.s1
  have h7 := hs.s2
  have h8 := hs.s3
  have h9 := hs.x2
  have h10 := hw.vkPublic
  have h11 := hw.vkPower
  rw [Circuit.vk, Zkey.circuit]
  simp only [polyOf_eval, ← h1, ← h2, ← h3, ← h4, ← h5, ← h6, ← h7, ← h8, ← h9, ← h10, ← h11]

theorem key_valid {w w4 : F} {σ : Equiv.Perm key.circuit.Wire} (hw : key.WellFormed) (hp : key.PolysValid w w4)
    (hc : key.Complete w σ) : key.circuit.Valid w σ key.domainSize where
  publicLe := by
    have := public_le hw
    rw [hw.size] at this
    exact this
  names := hc.names
  sigma x := by
    rw [← hc.encodes x, ← polyOf_eval]
    obtain ⟨x, i⟩ := x
    cases x <;> rfl
  degree := by
    have h1 := (hp.sigma .a).length
    have h2 := (hp.sigma .b).length
    have h3 := (hp.sigma .c).length
    simp only [Zkey.sigma] at h1 h2 h3
    simp only [List.mem_cons, List.not_mem_nil, or_false, forall_eq_or_imp, forall_eq, Zkey.circuit]
    exact ⟨polyOf_natDegree hp.qm.length, polyOf_natDegree hp.ql.length, polyOf_natDegree hp.qr.length, polyOf_natDegree hp.qo.length,
      polyOf_natDegree hp.qc.length, polyOf_natDegree h1, polyOf_natDegree h2, polyOf_natDegree h3⟩

theorem key_assignment {w : F} {σ : Equiv.Perm key.circuit.Wire} (hw : key.WellFormed) (hc : key.Complete w σ) {pub : List F}
    {x : key.circuit.Wire → F} (h : key.circuit.Holds w σ pub x) :
    ∃ z : List F, z.length = key.nVars ∧ (∀ j < key.nPublic, z.getD (j + 1) 0 = pub.getD j 0) ∧
      (∀ y : key.circuit.Wire, x y = z.getD (key.signal y.1 y.2.1) 0) ∧ key.Satisfied w z := by
  classical
  have hcyc : ∀ y y' : key.circuit.Wire, σ.SameCycle y y' → x y = x y' := by
    rintro y _ ⟨k, rfl⟩
    have hnat : ∀ (k : Nat) (y : key.circuit.Wire), x ((σ ^ k) y) = x y := by
      intro k
      induction k with
      | zero => intro y; rfl
      | succ k ih => intro y; rw [pow_succ, Equiv.Perm.mul_apply, ih, h.copies]
    cases k with
    | ofNat k => exact (hnat k y).symm
    | negSucc k =>
      rw [zpow_negSucc, ← hnat (k + 1) (((σ ^ (k + 1))⁻¹) y), ← Equiv.Perm.mul_apply, mul_inv_cancel, Equiv.Perm.one_apply]
  let val : Nat → F := fun s => if hy : ∃ y : key.circuit.Wire, key.signal y.1 y.2.1 = s then x hy.choose else 0
  have hval : ∀ y : key.circuit.Wire, val (key.signal y.1 y.2.1) = x y := by
    intro y
    have hy : ∃ y' : key.circuit.Wire, key.signal y'.1 y'.2.1 = key.signal y.1 y.2.1 := ⟨y, rfl⟩
    simp only [val, dif_pos hy]
    exact hcyc _ _ ((hc.cycles _ _).1 hy.choose_spec)
  have hsig : ∀ c i, key.signal c i < key.nVars := by
    have h0 : 0 < key.nVars := by have := hw.vars; omega
    have hget : ∀ (l : List Nat) (i : Nat), (∀ s ∈ l, s < key.nVars) → l.getD i 0 < key.nVars := by
      intro l i hl
      rw [List.getD_eq_getElem?_getD]
      cases hi : l[i]? with
      | none => exact h0
      | some s => exact hl s (List.mem_of_getElem? hi)
    intro c i
    cases c
    exacts [hget _ _ hw.mapA, hget _ _ hw.mapB, hget _ _ hw.mapC]
  have hz : ∀ s < key.nVars, ((List.range key.nVars).map val).getD s 0 = val s := fun s hs => by simp [hs]
  have hwire : ∀ y : key.circuit.Wire, x y = ((List.range key.nVars).map val).getD (key.signal y.1 y.2.1) 0 := fun y => by
    rw [hz _ (hsig _ _), hval]
  have hle := public_le hw
  have hsize : key.circuit.size = key.domainSize := hw.size.symm
  have q1 : ∀ y, key.circuit.qm.eval y = polyValue key.qm.coeffs y := polyOf_eval _
  have q2 : ∀ y, key.circuit.ql.eval y = polyValue key.ql.coeffs y := polyOf_eval _
  have q3 : ∀ y, key.circuit.qr.eval y = polyValue key.qr.coeffs y := polyOf_eval _
  have q4 : ∀ y, key.circuit.qo.eval y = polyValue key.qo.coeffs y := polyOf_eval _
  have q5 : ∀ y, key.circuit.qc.eval y = polyValue key.qc.coeffs y := polyOf_eval _
  have hpubA : ∀ j < key.nPublic, key.signal .a j = j + 1 := fun j hj => by
    rw [Zkey.signal, List.getD_eq_getElem?_getD, hw.publicA j hj]; rfl
  have hpub : ∀ j < key.nPublic, ((List.range key.nVars).map val).getD (j + 1) 0 = pub.getD j 0 := by
    intro j hj
    have hj' : j < key.circuit.size := by rw [hsize]; omega
    obtain ⟨p1, p2, p3, p4, p5⟩ := hc.publicGates j hj
    have hg := h.gates ⟨j, hj'⟩
    have hj'' : j < key.circuit.nPublic := hj
    simp only [q1, q2, q3, q4, q5] at hg
    rw [p1, p2, p3, p4, p5, if_pos hj'', hwire (.a, ⟨j, hj'⟩)] at hg
    simp only [hpubA j hj] at hg
    rw [← hg]
    ring
  refine ⟨_, by simp, hpub, hwire, fun i hi => ?_⟩
  have hg := h.gates ⟨i, by rw [hsize]; exact hi⟩
  simp only [hwire] at hg
  simp only [q1, q2, q3, q4, q5] at hg
  have hnp : key.circuit.nPublic = key.nPublic := rfl
  rw [hg, hnp]
  split_ifs with hi'
  · exact (hpub i hi').symm
  · rfl

end Key

end Verif.Plonk
