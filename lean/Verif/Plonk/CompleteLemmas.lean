import Verif.Plonk.OpenLemmas
import Mathlib.Tactic.Module

/-!
# Lemmas: the verifier accepts what the reference prover returns
-/

namespace Verif.Plonk

open Polynomial Finset

variable {F G H T : Type} [Field F] [DecidableEq F] [AddCommGroup G] [Module F G] [AddCommGroup H] [Module F H]
  [AddCommGroup T] [Module F T] [DecidableEq T]

section Values

variable {key : Zkey F G H} {dom : Domains F} (hd : dom.Ok) (hsz : dom.size = key.domainSize) (hw : key.WellFormed)
  (hp : key.PolysValid dom.root dom.root4)

omit [AddCommGroup G] [Module F G] [AddCommGroup H] [Module F H]

include hd hsz hw hp

theorem lagrangeEvaluations_eq {ξ : F} {l : List F × F} (h : lagrangeEvaluations key.pow key.nPublic ξ dom = .ok l)
    {inputs z : List F} (hi : inputs.length = key.nPublic) (hz : ∀ j < key.nPublic, z.getD (j + 1) 0 = inputs.getD j 0) :
    l.2 = ξ ^ dom.size ∧ l.1.getD 0 0 = (ofList (lag key 0)).eval ξ ∧ calculatePi inputs l.1 = (piPoly key z).eval ξ := by
  have hmax : max 1 key.nPublic = key.nPublic := max_eq_right hw.hasPublic
  have hn : (2 ^ key.pow : Nat) = dom.size := by rw [hsz, hw.size]
  rw [lagrangeEvaluations, hmax, hn] at h
  cases hl : lagrangeLoop ξ (ξ ^ dom.size - 1) (dom.size : F) dom.root key.nPublic 1 with
  | error e => rw [hl] at h; cases h
  | ok r =>
    rw [hl] at h
    have h : Except.ok (r, ξ ^ dom.size) = Except.ok (ε := Err) l := h
    simp only [Except.ok.injEq] at h
    subst h
    obtain ⟨h1, h2⟩ := lagrangeLoop_eq _ _ _ _ _ _ hl
    have hval : ∀ j < key.nPublic, r.getD j 0 = (ofList (lag key j)).eval ξ := by
      intro j hj
      obtain ⟨h3, h4⟩ := h2 j hj
      rw [one_mul] at h3 h4
      obtain ⟨p, p1, p2, p3⟩ := lag_spec hp hj
      have hjn : j < dom.size := by rw [hsz]; exact hj.trans_le (public_le hw)
      have := lagrange_eval hd.pos hd.prim hd.ne' (l := ofList (lag key j))
        ((ofList_degree _).trans_le (by rw [hsz]; exact_mod_cast lag_length hp hj)) hjn
        (fun i hi => by rw [p2, ← polyValue_eq, (hp.lagrangePoly _ _ p1).2 i (by rw [← hsz]; exact hi)]) ξ
      exact mul_right_cancel₀ h3 (h4.trans this.symm)
    refine ⟨rfl, hval 0 hw.hasPublic, ?_⟩
    rw [calculatePi_eq _ _ (by rw [h1, hi]), piPoly, eval_neg, eval_finsetSum, hi]
    congr 1
    refine sum_congr rfl fun j hj => ?_
    have hj := mem_range.1 hj
    rw [eval_mul, eval_C, hval j hj, hz j hj, mul_comm]

theorem lagrangeEvaluations_ok {ξ : F} (h : ξ ^ dom.size ≠ 1) :
    ∃ l, lagrangeEvaluations key.pow key.nPublic ξ dom = .ok l := by
  have hmax : max 1 key.nPublic = key.nPublic := max_eq_right hw.hasPublic
  have hn : (2 ^ key.pow : Nat) = dom.size := by rw [hsz, hw.size]
  rw [lagrangeEvaluations, hmax, hn]
  obtain ⟨l, hl⟩ := lagrangeLoop_ok ξ (ξ ^ dom.size - 1) (dom.size : F) dom.root key.nPublic 1 fun j _ => by
    refine mul_ne_zero hd.ne' fun h0 => h ?_
    rw [sub_eq_zero.1 h0, one_mul, ← pow_mul, mul_comm, pow_mul, hd.prim.pow_eq_one, one_pow]
  exact ⟨_, by rw [hl]; rfl⟩

end Values

omit [DecidableEq F] in
/-- The check of the verifier, for commitments to polynomials that satisfy the equations of rounds 3 and 5. -/
theorem pairing_eq {key : Zkey F G H} {τ : F} {g₁ : G} {g₂ : H} (hs : key.SetupValid τ g₁ g₂) (e : G →ₗ[F] H →ₗ[F] T)
    (ch : Challenges F) (u pi l0 xin ω : F) (ev : Evals F) (A B C' Z T1 T2 T3 R W Ww : F[X])
    (hR : R = C ((ev.a + ch.β * ch.ξ + ch.γ) * (ev.b + ch.β * ch.ξ * key.vk.k1 + ch.γ)
        * (ev.c + ch.β * ch.ξ * key.vk.k2 + ch.γ) * ch.α + ch.α ^ 2 * l0) * Z
      + (C (ev.a * ev.b) * ofList key.qm.coeffs + C ev.a * ofList key.ql.coeffs
        + C ev.b * ofList key.qr.coeffs + C ev.c * ofList key.qo.coeffs + ofList key.qc.coeffs
        - C ((ev.a + ch.β * ev.s1 + ch.γ) * (ev.b + ch.β * ev.s2 + ch.γ) * ev.zw * ch.α * ch.β) * ofList key.s3.coeffs)
      - C (xin - 1) * (T1 + C xin * T2 + C (xin ^ 2) * T3)
      + C (pi - (ev.a + ch.β * ev.s1 + ch.γ) * (ev.b + ch.β * ev.s2 + ch.γ) * ev.zw * ch.α * (ev.c + ch.γ) - ch.α ^ 2 * l0))
    (hW : W * (X - C ch.ξ) = R + C ch.v * (A - C ev.a) + C (ch.v ^ 2) * (B - C ev.b)
      + C (ch.v ^ 3) * (C' - C ev.c) + C (ch.v ^ 4) * (ofList key.s1.coeffs - C ev.s1)
      + C (ch.v ^ 5) * (ofList key.s2.coeffs - C ev.s2))
    (hWw : Ww * (X - C (ch.ξ * ω)) = Z - C ev.zw) {proof : Proof F G}
    (hproof : proof = ⟨A.eval τ • g₁, B.eval τ • g₁, C'.eval τ • g₁, Z.eval τ • g₁, T1.eval τ • g₁, T2.eval τ • g₁,
      T3.eval τ • g₁, W.eval τ • g₁, Ww.eval τ • g₁, ev.a, ev.b, ev.c, ev.s1, ev.s2, ev.zw⟩) :
    e (proof.wxi + u • proof.wxiw) key.vk.x2 = e (ch.ξ • proof.wxi + (u * ch.ξ * ω) • proof.wxiw
      - calculateE g₁ proof ch u (calculateR0D key.vk proof ch u pi l0 xin).1
      + calculateF key.vk proof ch (calculateR0D key.vk proof ch u pi l0 xin).2) g₂ := by
  subst hproof
  have hR := congrArg (eval τ) hR
  have hW := congrArg (eval τ) hW
  have hWw := congrArg (eval τ) hWw
  simp only [eval_add, eval_sub, eval_mul, eval_C, eval_X] at hR hW hWw
  simp only [calculateE, calculateF, calculateR0D, hs.qm, hs.ql, hs.qr, hs.qo, hs.qc, hs.s1, hs.s2, hs.s3, hs.x2, polyValue_eq]
  have e1 : ∀ (x : F) (y : F), e (x • g₁) (y • g₂) = (y * x) • e g₁ g₂ := fun x y => by
    rw [map_smul, map_smul, LinearMap.smul_apply, smul_smul]
  have e2 : ∀ (x : F), e (x • g₁) g₂ = x • e g₁ g₂ := fun x => by rw [map_smul, LinearMap.smul_apply]
  simp only [smul_smul, ← add_smul, ← sub_smul, smul_add]
  rw [e1, e2]
  congr 1
  linear_combination hW + u * hWw + hR

section Complete

variable {key : Zkey F G H} {dom : Domains F} (hd : dom.Ok) (hsz : dom.size = key.domainSize) (hw : key.WellFormed)
  (hp : key.PolysValid dom.root dom.root4) {τ : F} {g₁ : G} {g₂ : H} (hs : key.SetupValid τ g₁ g₂) (hash : List (F ⊕ G) → F)

include hd hsz hw hp hs

theorem round2_eq (β γ : F) (z : List F) {b : List F} (hb : b.length = 11) :
    round2 (reference (F := F) (G := G)) key dom β γ (wiresOf key dom z b) b =
      if ∃ i < key.domainSize, denAt key dom β γ z i = 0 then .error (.err "Cannot invert zero")
      else .ok (interpolate dom (bufZ key dom β γ z) ((b.drop 6).take 3),
        (ofList (interpolate dom (bufZ key dom β γ z) ((b.drop 6).take 3)).poly).eval τ • g₁) := by
  have h8 := size_ge hsz hw
  rw [round2, computeZ_eq hd hsz hw hp β γ z hb _ rfl]
  split_ifs with h
  · rfl
  · rw [ok_bind, commit_eq hs]
    · rfl
    · rw [(interpolate_eq hd (by simp [bufZ, hsz]) (by simp; omega)).2.1, hsz]; simp

/-- Everything that rounds 3 to 5 return. -/
theorem rounds_eq (β γ α : F) {z : List F} (hsat : key.Satisfied dom.root z)
    (hden : ∀ i < key.domainSize, denAt key dom β γ z i ≠ 0) {b : List F} (hb : b.length = 11) :
    ∃ ps : FinalPolys F, round3 (reference (F := F) (G := G)) key dom β γ α (wiresOf key dom z b)
        (interpolate dom (bufZ key dom β γ z) ((b.drop 6).take 3)) b =
        .ok (ps, [(ofList ps.t1).eval τ • g₁, (ofList ps.t2).eval τ • g₁, (ofList ps.t3).eval τ • g₁]) ∧
      ps.a = (wiresOf key dom z b).a.poly ∧ ps.b = (wiresOf key dom z b).b.poly ∧ ps.c = (wiresOf key dom z b).c.poly ∧
      ps.z = (interpolate dom (bufZ key dom β γ z) ((b.drop 6).take 3)).poly ∧
      ps.a.length = dom.size + 2 ∧ ps.b.length = dom.size + 2 ∧ ps.c.length = dom.size + 2 ∧ ps.z.length = dom.size + 3 ∧
      ps.t1.length = dom.size + 1 ∧ ps.t2.length = dom.size + 1 ∧ ps.t3.length = dom.size + 6 ∧
      (ofList ps.t1 + X ^ dom.size * ofList ps.t2 + X ^ (2 * dom.size) * ofList ps.t3) * (X ^ dom.size - 1) =
        tPoly key β γ α (piPoly key z) (ofList (lag key 0)) (ofList ps.a) (ofList ps.b) (ofList ps.c) (ofList ps.z)
          ((ofList ps.z).comp (C dom.root * X)) := by
  have h8 := size_ge hsz hw
  obtain ⟨t, h1, h2, h3, h4, h5⟩ := round3_poly hd hsz hw hp β γ α hsat hden hb
  refine ⟨⟨(wiresOf key dom z b).a.poly, (wiresOf key dom z b).b.poly, (wiresOf key dom z b).c.poly,
    (interpolate dom (bufZ key dom β γ z) ((b.drop 6).take 3)).poly, t.1, t.2.1, t.2.2⟩, ?_, rfl, rfl, rfl, rfl, ?_, ?_, ?_, ?_,
    h2, h3, h4, h5⟩
  · rw [round3, h1, ok_bind, commit_eq hs (by omega), ok_bind, commit_eq hs (by omega), ok_bind, commit_eq hs (by omega)]
    rfl
  · have := (interpolate_eq hd (buffer := bufOf key z .a) (blind := b.take 2) (by rw [bufOf_length, hsz]) (by simp; omega)).2.1
    simpa [hb, wiresOf] using this
  · have := (interpolate_eq hd (buffer := bufOf key z .b) (blind := (b.drop 2).take 2) (by rw [bufOf_length, hsz])
      (by simp; omega)).2.1
    simpa [hb, wiresOf] using this
  · have := (interpolate_eq hd (buffer := bufOf key z .c) (blind := (b.drop 4).take 2) (by rw [bufOf_length, hsz])
      (by simp; omega)).2.1
    simpa [hb, wiresOf] using this
  · have := (interpolate_eq hd (buffer := bufZ key dom β γ z) (blind := (b.drop 6).take 3) (by simp [bufZ, hsz])
      (by simp; omega)).2.1
    simpa [hb, wiresOf] using this

omit hd hsz hw hp hs [AddCommGroup H] [Module F H] in
theorem round4_eq (ξ : F) (ps : FinalPolys F) : round4 (reference (F := F) (G := G)) key dom ξ ps =
    .ok ⟨(ofList ps.a).eval ξ, (ofList ps.b).eval ξ, (ofList ps.c).eval ξ, (ofList key.s1.coeffs).eval ξ,
      (ofList key.s2.coeffs).eval ξ, (ofList ps.z).eval (ξ * dom.root)⟩ := by
  simp only [← evalPublic_eq]
  rfl

/-- Round 5 for the polynomials of round 3. -/
theorem round5_eq {inputs z : List F} (hi : inputs.length = key.nPublic)
    (hz : ∀ j < key.nPublic, z.getD (j + 1) 0 = inputs.getD j 0) (ch : Challenges F) (ps : FinalPolys F)
    (ha : ps.a.length = dom.size + 2) (hb : ps.b.length = dom.size + 2) (hc : ps.c.length = dom.size + 2)
    (hzl : ps.z.length = dom.size + 3) (h1 : ps.t1.length = dom.size + 1) (h2 : ps.t2.length = dom.size + 1)
    (h3 : ps.t3.length = dom.size + 6)
    (ht : (ofList ps.t1 + X ^ dom.size * ofList ps.t2 + X ^ (2 * dom.size) * ofList ps.t3) * (X ^ dom.size - 1) =
        tPoly key ch.β ch.γ ch.α (piPoly key z) (ofList (lag key 0)) (ofList ps.a) (ofList ps.b) (ofList ps.c) (ofList ps.z)
          ((ofList ps.z).comp (C dom.root * X))) (ev : Evals F)
    (hev : ev = ⟨(ofList ps.a).eval ch.ξ, (ofList ps.b).eval ch.ξ, (ofList ps.c).eval ch.ξ, (ofList key.s1.coeffs).eval ch.ξ,
      (ofList key.s2.coeffs).eval ch.ξ, (ofList ps.z).eval (ch.ξ * dom.root)⟩) {w : List G}
    (h : round5 (reference (F := F) (G := G)) key dom inputs ch ev ps = .ok w) :
    ∃ l W Ww, lagrangeEvaluations key.pow key.nPublic ch.ξ dom = .ok l ∧
      w = [(ofList W).eval τ • g₁, (ofList Ww).eval τ • g₁] ∧
      ofList W * (X - C ch.ξ) = ofList (computeR (fun x y => x + y) key ch ev ps (calculatePi inputs l.1) (l.1.getD 0 0) l.2)
        + C ch.v * (ofList ps.a - C ev.a) + C (ch.v ^ 2) * (ofList ps.b - C ev.b)
        + C (ch.v ^ 3) * (ofList ps.c - C ev.c) + C (ch.v ^ 4) * (ofList key.s1.coeffs - C ev.s1)
        + C (ch.v ^ 5) * (ofList key.s2.coeffs - C ev.s2) ∧
      ofList Ww * (X - C (ch.ξ * dom.root)) = ofList ps.z - C ev.zw := by
  have h8 := size_ge hsz hw
  rw [round5] at h
  simp only [local_reference] at h
  cases hl : lagrangeEvaluations key.pow key.nPublic ch.ξ dom with
  | error e => rw [hl] at h; cases h
  | ok l =>
    rw [hl, ok_bind] at h
    obtain ⟨l1, l2, l3⟩ := lagrangeEvaluations_eq hd hsz hw hp hl hi hz
    have b4' : (reference (F := F) (G := G)).addPub = fun x y => x + y := rfl
    simp only [b4'] at h
    have hkey : ∀ p ∈ [key.qm, key.ql, key.qr, key.qo, key.qc, key.s3], p.coeffs.length ≤ key.domainSize := by
      intro p hmem
      have hs3 := hp.sigma .c
      simp only [Zkey.sigma] at hs3
      simp only [List.mem_cons, List.not_mem_nil, or_false] at hmem
      rcases hmem with rfl | rfl | rfl | rfl | rfl | rfl
      exacts [hp.qm.length, hp.ql.length, hp.qr.length, hp.qo.length, hp.qc.length, hs3.length]
    have hs1 := hp.sigma .a
    have hs2 := hp.sigma .b
    simp only [Zkey.sigma] at hs1 hs2
    obtain ⟨r1, r2⟩ := computeR_eq key ch ev ps (calculatePi inputs l.1) (l.1.getD 0 0) l.2 hkey (by omega) (by omega) (by omega)
      (by omega)
    have hr0 : (ofList (computeR (fun x y => x + y) key ch ev ps (calculatePi inputs l.1) (l.1.getD 0 0) l.2)).eval ch.ξ = 0 := by
      have ht := congrArg (eval ch.ξ) ht
      rw [r1, l1, l2, l3]
      subst hev
      simp only [tPoly, eval_add, eval_sub, eval_mul, eval_C, eval_X, eval_pow, eval_one, eval_comp] at ht ⊢
      rw [mul_comm dom.root ch.ξ] at ht
      linear_combination -ht
    cases hW : computeWxi (fun x y => x + y) key ch ev ps
        (computeR (fun x y => x + y) key ch ev ps (calculatePi inputs l.1) (l.1.getD 0 0) l.2) with
    | error e => rw [hW] at h; cases h
    | ok W =>
      rw [hW, ok_bind] at h
      cases hWw : computeWxiw (fun x y => x + y) dom ch ev ps.z with
      | error e => rw [hWw] at h; cases h
      | ok Ww =>
        rw [hWw, ok_bind] at h
        obtain ⟨w1, w2⟩ := computeWxi_eq key ch ev ps _ hW (by omega) (by omega) (by omega) (by omega) hs1.length hs2.length hr0
          (by rw [hev]) (by rw [hev]) (by rw [hev]) (by rw [hev]) (by rw [hev])
        obtain ⟨w3, w4⟩ := computeWxiw_eq dom ch ev ps.z hWw (by intro h0; rw [h0] at hzl; simp at hzl) (by rw [hev])
        rw [commit_eq hs (by omega), ok_bind, commit_eq hs (by omega), ok_bind] at h
        refine ⟨l, W, Ww, rfl, ?_, w1, w3⟩
        have h : Except.ok (ε := Err) [(ofList W).eval τ • g₁, (ofList Ww).eval τ • g₁] = .ok w := h
        exact (Except.ok.inj h).symm

omit hs in
/-- The points that the code calls `z` are the ones of the assignment. -/
theorem prove_verify {inputs wit adds : List F} (hf : key.Fits inputs wit) (hadds : adds.length = key.nAdditions)
    (hs : key.SetupValid τ g₁ g₂) (hsat : key.Satisfied dom.root (0 :: inputs ++ wit ++ adds)) {b : List F} (hb : b.length = 11)
    (pr : Groth16.FftParams F) (hnew : Domains.new pr key.domainSize = .ok dom) (e : G →ₗ[F] H →ₗ[F] T) {proof : Proof F G}
    (h : proveWith (reference (F := F) (G := G)) hash key dom (0 :: inputs) wit adds b = .ok proof) :
    verify hash pr (fun P Q => e P Q) g₁ g₂ key.vk proof inputs = .ok () := by
  have h8 := size_ge hsz hw
  have hz : ∀ j < key.nPublic, (0 :: inputs ++ wit ++ adds).getD (j + 1) 0 = inputs.getD j 0 := by
    intro j hj
    have := hf.inputs
    rw [List.append_assoc, List.cons_append, List.getD_cons_succ, List.getD_eq_getElem?_getD, List.getElem?_append_left (by omega),
      ← List.getD_eq_getElem?_getD]
  generalize hzz : 0 :: inputs ++ wit ++ adds = z at hsat hz
  rw [proveWith, round1_eq hd hsz hw hf hadds hb hs (wiresOf key dom z b) (by rw [hzz]), ok_bind] at h
  simp only [List.tail_cons, List.getD_cons_zero, List.getD_cons_succ] at h
  generalize hβ : challengeβ hash key.vk inputs ((ofList (wiresOf key dom z b).a.poly).eval τ • g₁)
    ((ofList (wiresOf key dom z b).b.poly).eval τ • g₁) ((ofList (wiresOf key dom z b).c.poly).eval τ • g₁) = β at h
  generalize hγ : challengeγ hash β = γ at h
  rw [round2_eq hd hsz hw hp hs β γ z hb] at h
  split_ifs at h with hden
  · cases h
  rw [ok_bind] at h
  have hden : ∀ i < key.domainSize, denAt key dom β γ z i ≠ 0 := fun i hi h0 => hden ⟨i, hi, h0⟩
  simp only [] at h
  generalize hα : challengeα hash β γ ((ofList (interpolate dom (bufZ key dom β γ z) ((b.drop 6).take 3)).poly).eval τ • g₁) = α
    at h
  obtain ⟨ps, h3, pa, pb, pc, pz, la, lb, lc, lz, l1, l2, l3, ht⟩ := rounds_eq hd hsz hw hp hs β γ α hsat hden hb
  rw [h3, ok_bind, round4_eq] at h
  simp only [ok_bind, List.getD_cons_zero, List.getD_cons_succ] at h
  rw [← pa, ← pb, ← pc] at hβ h
  rw [← pz] at hα h
  generalize hξ : challengeξ hash α ((ofList ps.t1).eval τ • g₁) ((ofList ps.t2).eval τ • g₁) ((ofList ps.t3).eval τ • g₁) = ξ at h
  generalize hev : (⟨(ofList ps.a).eval ξ, (ofList ps.b).eval ξ, (ofList ps.c).eval ξ, (ofList key.s1.coeffs).eval ξ,
      (ofList key.s2.coeffs).eval ξ, (ofList ps.z).eval (ξ * dom.root)⟩ : Evals F) = ev at h
  generalize hv : challengeV hash ξ ev = v at h
  cases h5 : round5 (reference (F := F) (G := G)) key dom inputs ⟨β, γ, α, ξ, v⟩ ev ps with
  | error e => rw [h5] at h; cases h
  | ok w =>
    rw [h5, ok_bind] at h
    obtain ⟨l, W, Ww, e1, rfl, e3, e4⟩ := round5_eq hd hsz hw hp hs hf.inputs hz ⟨β, γ, α, ξ, v⟩ ps la lb lc lz l1 l2 l3 ht ev
      hev.symm h5
    have hkey : ∀ p ∈ [key.qm, key.ql, key.qr, key.qo, key.qc, key.s3], p.coeffs.length ≤ key.domainSize := by
      intro p hmem
      have hs3 := hp.sigma .c
      simp only [Zkey.sigma] at hs3
      simp only [List.mem_cons, List.not_mem_nil, or_false] at hmem
      rcases hmem with rfl | rfl | rfl | rfl | rfl | rfl
      exacts [hp.qm.length, hp.ql.length, hp.qr.length, hp.qo.length, hp.qc.length, hs3.length]
    have hR := (computeR_eq key ⟨β, γ, α, ξ, v⟩ ev ps (calculatePi inputs l.1) (l.1.getD 0 0) l.2 hkey (by omega) (by omega)
      (by omega) (by omega)).1
    subst hev
    have hproof := (Except.ok.inj h).symm
    simp only [List.getD_cons_zero, List.getD_cons_succ] at hproof
    have hch : verifierChallenges hash key.vk proof inputs = ⟨β, γ, α, ξ, v⟩ := by
      simp only [verifierChallenges, hproof, hβ, hγ, hα, hξ, hv]
    have hpair := pairing_eq hs e ⟨β, γ, α, ξ, v⟩ (challengeU hash proof.wxi proof.wxiw) (calculatePi inputs l.1) (l.1.getD 0 0)
      l.2 dom.root _ _ _ _ _ _ _ _ _ _ _ hR e3 e4 hproof
    have hl : key.vk.nPublic = inputs.length := by rw [hw.vkPublic, hf.inputs]
    have hn : (2 ^ key.vk.power : Nat) = key.domainSize := by rw [hw.size, hw.vkPower]
    rw [verify]
    simp only [hl, ne_eq, not_true_eq_false, if_false, hch, hn, hnew, ok_bind]
    rw [← hl, hw.vkPublic, hw.vkPower, e1, ok_bind]
    rw [if_pos hpair]

omit [AddCommGroup G] [Module F G] [AddCommGroup H] [Module F H] [DecidableEq F] hd hsz hw hs in
/-- No denominator of round 2 vanishes. -/
theorem denAt_ne {z : List F} {β γ : F}
    (h : ∀ x, ∀ i < key.domainSize, z.getD (key.signal x i) 0 + β * key.label dom.root x i + γ ≠ 0) {i : Nat}
    (hi : i < key.domainSize) : denAt key dom β γ z i ≠ 0 := by
  obtain ⟨σ, hσ⟩ := hp.permutation
  have hx : ∀ x, z.getD (key.signal x i) 0 + β * polyValue (key.sigma x).coeffs (dom.root ^ i) + γ ≠ 0 := fun x => by
    have := hσ (x, ⟨i, hi⟩)
    simp only [] at this
    rw [this.1, ← this.2]
    exact h _ _ (σ (x, ⟨i, hi⟩)).2.2
  exact mul_ne_zero (mul_ne_zero (hx .a) (hx .b)) (hx .c)

omit [AddCommGroup G] [Module F G] [AddCommGroup H] [Module F H] hd hsz hw hp hs in
theorem divByZerofier_ok {l : List F} {x : F} (hx : x ≠ 0) (hl : l ≠ []) : ∃ r, divByZerofier l x = .ok r := by
  cases l with
  | nil => exact absurd rfl hl
  | cons y l => exact ⟨_, by rw [divByZerofier, if_neg hx]⟩

omit [AddCommGroup G] [Module F G] [AddCommGroup H] [Module F H] hd hsz hw hp hs in
theorem divByZerofier_length {l r : List F} {x : F} (h : divByZerofier l x = .ok r) : r.length ≤ l.length := by
  unfold divByZerofier at h
  split_ifs at h
  cases l with
  | nil => simp at h
  | cons y l =>
    simp only [Except.ok.injEq] at h
    rw [← h, List.length_take, List.length_cons, List.length_cons]
    omega

variable (key dom) in
omit hd hsz hw hp hs [AddCommGroup H] [Module F H] in
/-- What the reference prover hashes. -/
noncomputable def queriesOf (τ : F) (g₁ : G) (inputs z b : List F) : Queries F G where
  first := [.inr key.vk.qm, .inr key.vk.ql, .inr key.vk.qr, .inr key.vk.qo, .inr key.vk.qc, .inr key.vk.s1, .inr key.vk.s2,
      .inr key.vk.s3] ++ inputs.map .inl ++ [.inr ((ofList (wiresOf key dom z b).a.poly).eval τ • g₁),
      .inr ((ofList (wiresOf key dom z b).b.poly).eval τ • g₁), .inr ((ofList (wiresOf key dom z b).c.poly).eval τ • g₁)]
  z β γ := (ofList (interpolate dom (bufZ key dom β γ z) ((b.drop 6).take 3)).poly).eval τ • g₁
  t β γ α := match round3 (reference (F := F) (G := G)) key dom β γ α (wiresOf key dom z b)
      (interpolate dom (bufZ key dom β γ z) ((b.drop 6).take 3)) b with
    | .ok r => ((ofList r.1.t1).eval τ • g₁, (ofList r.1.t2).eval τ • g₁, (ofList r.1.t3).eval τ • g₁)
    | .error _ => (0, 0, 0)

/-- The reference prover succeeds if the challenges are not exceptional. -/
theorem prove_ok {inputs wit adds : List F} (hf : key.Fits inputs wit) (hadds : adds.length = key.nAdditions)
    (hsat : key.Satisfied dom.root (0 :: inputs ++ wit ++ adds)) {b : List F} (hb : b.length = 11)
    (hg : ¬ (queriesOf key dom τ g₁ inputs (0 :: inputs ++ wit ++ adds) b).Exceptional key dom.root (0 :: inputs ++ wit ++ adds) hash) :
    ∃ proof, proveWith (reference (F := F) (G := G)) hash key dom (0 :: inputs) wit adds b = .ok proof := by
  have h8 := size_ge hsz hw
  have hz : ∀ j < key.nPublic, (0 :: inputs ++ wit ++ adds).getD (j + 1) 0 = inputs.getD j 0 := by
    intro j hj
    have := hf.inputs
    rw [List.append_assoc, List.cons_append, List.getD_cons_succ, List.getD_eq_getElem?_getD, List.getElem?_append_left (by omega),
      ← List.getD_eq_getElem?_getD]
  generalize hzz : 0 :: inputs ++ wit ++ adds = z at hsat hz hg
  rw [proveWith, round1_eq hd hsz hw hf hadds hb hs (wiresOf key dom z b) (by rw [hzz]), ok_bind]
  simp only [List.tail_cons, List.getD_cons_zero, List.getD_cons_succ]
  generalize hβ : challengeβ hash key.vk inputs ((ofList (wiresOf key dom z b).a.poly).eval τ • g₁)
    ((ofList (wiresOf key dom z b).b.poly).eval τ • g₁) ((ofList (wiresOf key dom z b).c.poly).eval τ • g₁) = β
  generalize hγ : challengeγ hash β = γ
  have hden : ∀ i < key.domainSize, denAt key dom β γ z i ≠ 0 := fun i hi => denAt_ne hp (fun x i hi => by
    subst hγ hβ
    exact fun h0 => hg (.inl ⟨x, i, hi, h0⟩)) hi
  rw [round2_eq hd hsz hw hp hs β γ z hb, if_neg (by rintro ⟨i, hi, h0⟩; exact hden i hi h0), ok_bind]
  simp only []
  generalize hα : challengeα hash β γ ((ofList (interpolate dom (bufZ key dom β γ z) ((b.drop 6).take 3)).poly).eval τ • g₁) = α
  obtain ⟨ps, h3, pa, pb, pc, pz, la, lb, lc, lz, l1, l2, l3, ht⟩ := rounds_eq hd hsz hw hp hs β γ α hsat hden hb
  rw [h3, ok_bind, round4_eq]
  simp only [ok_bind, List.getD_cons_zero, List.getD_cons_succ]
  generalize hξ : challengeξ hash α ((ofList ps.t1).eval τ • g₁) ((ofList ps.t2).eval τ • g₁) ((ofList ps.t3).eval τ • g₁) = ξ
  have hq : hash [.inl α, .inr ((queriesOf key dom τ g₁ inputs z b).t β γ α).1, .inr ((queriesOf key dom τ g₁ inputs z b).t β γ α).2.1,
      .inr ((queriesOf key dom τ g₁ inputs z b).t β γ α).2.2] = ξ := by
    rw [← hξ]
    simp only [queriesOf, h3]
    rfl
  have hξ0 : ξ ≠ 0 := by
    rw [← hq]
    subst hα hγ hβ
    exact fun h0 => hg (.inr (.inl h0))
  have hξ1 : ξ ^ dom.size ≠ 1 := by
    rw [← hq, hsz]
    subst hα hγ hβ
    exact fun h0 => hg (.inr (.inr h0))
  have hroot : dom.root ≠ 0 := fun h0 => by
    have := hd.prim.pow_eq_one
    rw [h0, zero_pow (by omega)] at this
    exact zero_ne_one this
  generalize hev : (⟨(ofList ps.a).eval ξ, (ofList ps.b).eval ξ, (ofList ps.c).eval ξ, (ofList key.s1.coeffs).eval ξ,
      (ofList key.s2.coeffs).eval ξ, (ofList ps.z).eval (ξ * dom.root)⟩ : Evals F) = ev
  generalize hv : challengeV hash ξ ev = v
  have h5 : ∃ w, round5 (reference (F := F) (G := G)) key dom inputs ⟨β, γ, α, ξ, v⟩ ev ps = .ok w := by
    obtain ⟨l, hl⟩ := lagrangeEvaluations_ok hd hsz hw hp hξ1
    rw [round5]
    simp only [local_reference]
    rw [hl, ok_bind]
    obtain ⟨W, hW⟩ : ∃ W, computeWxi (reference (F := F) (G := G)).addPub key ⟨β, γ, α, ξ, v⟩ ev ps
        (computeR (reference (F := F) (G := G)).addPub key ⟨β, γ, α, ξ, v⟩ ev ps (calculatePi inputs l.1) (l.1.getD 0 0) l.2)
        = .ok W := by
      refine divByZerofier_ok hξ0 fun h0 => ?_
      have := congrArg List.length h0
      simp [mapHead_length, zipInto_length] at this
    obtain ⟨Ww, hWw⟩ : ∃ W, computeWxiw (reference (F := F) (G := G)).addPub dom ⟨β, γ, α, ξ, v⟩ ev ps.z = .ok W := by
      refine divByZerofier_ok (mul_ne_zero hξ0 hroot) fun h0 => ?_
      have := congrArg List.length h0
      simp [mapHead_length, lz] at this
    have lW : W.length ≤ key.domainSize + 6 := by
      have := divByZerofier_length hW
      simp only [mapHead_length, zipInto_length, List.length_replicate] at this
      omega
    have lWw : Ww.length ≤ key.domainSize + 6 := by
      have := divByZerofier_length hWw
      simp only [mapHead_length, lz] at this
      omega
    rw [hW, ok_bind, hWw, ok_bind, commit_eq hs lW, ok_bind, commit_eq hs lWw, ok_bind]
    exact ⟨_, rfl⟩
  obtain ⟨w, hw⟩ := h5
  exact ⟨_, by rw [hw, ok_bind]; rfl⟩

end Complete

end Verif.Plonk
