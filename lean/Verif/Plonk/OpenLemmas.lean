import Verif.Plonk.Round3Lemmas

/-!
# Lemmas: the last rounds of the reference prover, and the verifier
-/

namespace Verif.Plonk

open Polynomial Finset
open Groth16 (resize)

variable {F G H : Type} [Field F]

theorem ofList_resize {l : List F} {m : Nat} (h : l.length ≤ m) : ofList (resize m l) = ofList l := by
  rw [resize, List.take_of_length_le (by simp; omega), ofList_append, ofList_replicate, mul_zero, add_zero]

theorem resize_length (l : List F) (m : Nat) : (resize m l).length = m := by simp [resize]; omega

theorem addFactorPoly_eq (p q : List F) (x : F) : ofList (addFactorPoly p q x) = ofList p + C x * ofList q ∧
    (addFactorPoly p q x).length = max p.length q.length := by
  rw [addFactorPoly]
  split_ifs with h
  · refine ⟨?_, ?_⟩
    · rw [ofList_zipInto (c := x) (fun _ _ _ => by ring) (by rw [resize_length]), ofList_resize h.le]
    · rw [zipInto_length, resize_length]; omega
  · refine ⟨ofList_zipInto (c := x) (fun _ _ _ => by ring) (by omega), ?_⟩
    rw [zipInto_length]; omega

theorem publicR_eq (key : Zkey F G H) (ev : Evals F) (e : F) {n : Nat}
    (h : ∀ p ∈ [key.qm, key.ql, key.qr, key.qo, key.qc, key.s3], p.coeffs.length ≤ n) :
    ofList (publicR key ev e) = C (ev.a * ev.b) * ofList key.qm.coeffs + C ev.a * ofList key.ql.coeffs
      + C ev.b * ofList key.qr.coeffs + C ev.c * ofList key.qo.coeffs + ofList key.qc.coeffs - C e * ofList key.s3.coeffs ∧
    (publicR key ev e).length ≤ n := by
  have hm : key.qm.coeffs.map (· * (ev.a * ev.b)) = key.qm.coeffs.map fun x => ev.a * ev.b * x :=
    List.map_congr_left fun x _ => mul_comm _ _
  simp only [publicR, hm]
  constructor
  · rw [(addFactorPoly_eq _ _ _).1, (addFactorPoly_eq _ _ _).1, (addFactorPoly_eq _ _ _).1, (addFactorPoly_eq _ _ _).1,
      (addFactorPoly_eq _ _ _).1, ofList_map_mul]
    simp only [C_1, C_neg, one_mul]
    ring
  · rw [(addFactorPoly_eq _ _ _).2, (addFactorPoly_eq _ _ _).2, (addFactorPoly_eq _ _ _).2, (addFactorPoly_eq _ _ _).2,
      (addFactorPoly_eq _ _ _).2, List.length_map]
    simp only [max_le_iff]
    exact ⟨⟨⟨⟨⟨h key.qm (by simp), h key.ql (by simp)⟩, h key.qr (by simp)⟩, h key.qo (by simp)⟩, h key.qc (by simp)⟩,
      h key.s3 (by simp)⟩

theorem zeros_add {c : F} {n : Nat} (x : F) (hx : x ∈ List.replicate n (0 : F)) (y : F) : c * y = x + c * y := by
  rw [List.eq_of_mem_replicate hx, zero_add]

theorem quotientPart_eq (len : Nat) (ps : FinalPolys F) (xin : F) (h1 : ps.t1.length ≤ len) (h2 : ps.t2.length ≤ len)
    (h3 : ps.t3.length ≤ len) :
    ofList (quotientPart len ps xin) = C (xin - 1) * (ofList ps.t1 + C xin * ofList ps.t2 + C (xin ^ 2) * ofList ps.t3) ∧
    (quotientPart len ps xin).length = len := by
  simp only [quotientPart, smul_eq_mul]
  refine ⟨?_, by simp [zipInto_length]⟩
  rw [ofList_map_mul, ofList_zipInto (c := 1) (fun _ _ _ => by ring) (by simp [zipInto_length, h1]),
    ofList_zipInto (c := xin) (fun _ _ _ => rfl) (by simp [zipInto_length, h2]),
    ofList_zipInto (c := xin ^ 2) (fun x hx y => zeros_add x hx y) (by simp [h3]), ofList_replicate]
  simp only [C_1]
  ring

theorem computeR_eq (key : Zkey F G H) (ch : Challenges F) (ev : Evals F) (ps : FinalPolys F) (pi l0 xin : F)
    (h : ∀ p ∈ [key.qm, key.ql, key.qr, key.qo, key.qc, key.s3], p.coeffs.length ≤ key.domainSize)
    (hz : ps.z.length ≤ key.domainSize + 6) (h1 : ps.t1.length ≤ key.domainSize + 6) (h2 : ps.t2.length ≤ key.domainSize + 6)
    (h3 : ps.t3.length ≤ key.domainSize + 6) :
    ofList (computeR (fun x y => x + y) key ch ev ps pi l0 xin) =
      C ((ev.a + ch.β * ch.ξ + ch.γ) * (ev.b + ch.β * ch.ξ * key.vk.k1 + ch.γ) * (ev.c + ch.β * ch.ξ * key.vk.k2 + ch.γ) * ch.α
        + ch.α ^ 2 * l0) * ofList ps.z
      + (C (ev.a * ev.b) * ofList key.qm.coeffs + C ev.a * ofList key.ql.coeffs
        + C ev.b * ofList key.qr.coeffs + C ev.c * ofList key.qo.coeffs + ofList key.qc.coeffs
        - C ((ev.a + ch.β * ev.s1 + ch.γ) * (ev.b + ch.β * ev.s2 + ch.γ) * ev.zw * ch.α * ch.β) * ofList key.s3.coeffs)
      - C (xin - 1) * (ofList ps.t1 + C xin * ofList ps.t2 + C (xin ^ 2) * ofList ps.t3)
      + C (pi - (ev.a + ch.β * ev.s1 + ch.γ) * (ev.b + ch.β * ev.s2 + ch.γ) * ev.zw * ch.α * (ev.c + ch.γ) - ch.α ^ 2 * l0) ∧
    (computeR (fun x y => x + y) key ch ev ps pi l0 xin).length = key.domainSize + 6 := by
  simp only [computeR, smul_eq_mul]
  obtain ⟨hp, hpl⟩ := publicR_eq key ev ((ev.a + ch.β * ev.s1 + ch.γ) * (ev.b + ch.β * ev.s2 + ch.γ) * ev.zw * ch.α * ch.β) h
  obtain ⟨hq, hql⟩ := quotientPart_eq (key.domainSize + 6) ps xin h1 h2 h3
  refine ⟨?_, by simp [mapHead_length, zipInto_length]⟩
  rw [ofList_mapHead (fun x => rfl) (by
      intro he
      have := congrArg List.length he
      simp [zipInto_length] at this),
    ofList_zipInto (c := -1) (fun _ _ _ => by ring) (by simp [zipInto_length, hql]),
    ofList_zipInto (c := 1) (fun _ _ _ => by ring) (by simp [zipInto_length]; omega),
    ofList_zipInto (fun x hx y => zeros_add x hx y) (by simp [hz]), ofList_replicate, hp, hq]
  simp only [C_1, C_neg]
  ring

variable [DecidableEq F]

theorem computeWxi_eq (key : Zkey F G H) (ch : Challenges F) (ev : Evals F) (ps : FinalPolys F) (r : List F) {w : List F}
    (hw : computeWxi (fun x y => x + y) key ch ev ps r = .ok w) (hr : r.length ≤ key.domainSize + 6)
    (ha : ps.a.length ≤ key.domainSize + 6) (hb : ps.b.length ≤ key.domainSize + 6) (hc : ps.c.length ≤ key.domainSize + 6)
    (h1 : key.s1.coeffs.length ≤ key.domainSize) (h2 : key.s2.coeffs.length ≤ key.domainSize)
    (hr0 : (ofList r).eval ch.ξ = 0) (ea : (ofList ps.a).eval ch.ξ = ev.a) (eb : (ofList ps.b).eval ch.ξ = ev.b)
    (ec : (ofList ps.c).eval ch.ξ = ev.c) (e1 : (ofList key.s1.coeffs).eval ch.ξ = ev.s1)
    (e2 : (ofList key.s2.coeffs).eval ch.ξ = ev.s2) :
    ofList w * (X - C ch.ξ) = ofList r + C ch.v * (ofList ps.a - C ev.a) + C (ch.v ^ 2) * (ofList ps.b - C ev.b)
      + C (ch.v ^ 3) * (ofList ps.c - C ev.c) + C (ch.v ^ 4) * (ofList key.s1.coeffs - C ev.s1)
      + C (ch.v ^ 5) * (ofList key.s2.coeffs - C ev.s2) ∧ w.length ≤ key.domainSize + 6 := by
  simp only [computeWxi, smul_eq_mul] at hw
  have e := divByZerofier_eq hw ?_
  · refine ⟨?_, ?_⟩
    · rw [e.1, ofList_mapHead (c := (-ch.v * ev.a) + (-ch.v ^ 2 * ev.b) + (-ch.v ^ 3 * ev.c) + (-ch.v ^ 4 * ev.s1)
        + (-ch.v ^ 5 * ev.s2)) (fun x => by ring) ?_,
        ofList_zipInto (c := ch.v ^ 5) (fun _ _ _ => by ring) (by simp [zipInto_length]; omega),
        ofList_zipInto (c := ch.v ^ 4) (fun _ _ _ => by ring) (by simp [zipInto_length]; omega),
        ofList_zipInto (c := ch.v ^ 3) (fun _ _ _ => by ring) (by simp [zipInto_length]; omega),
        ofList_zipInto (c := ch.v ^ 2) (fun _ _ _ => by ring) (by simp [zipInto_length]; omega),
        ofList_zipInto (c := ch.v) (fun _ _ _ => by ring) (by simp [zipInto_length]; omega),
        ofList_zipInto (c := 1) (fun x hx y => by rw [List.eq_of_mem_replicate hx]; ring) (by simp; omega), ofList_replicate]
      · simp only [C_1, C_neg, C_mul, C_add]
        ring
      · intro he
        have := congrArg List.length he
        simp [zipInto_length] at this
    · have := e.2
      simp [mapHead_length, zipInto_length] at this
      omega
  · rw [ofList_mapHead (c := (-ch.v * ev.a) + (-ch.v ^ 2 * ev.b) + (-ch.v ^ 3 * ev.c) + (-ch.v ^ 4 * ev.s1)
        + (-ch.v ^ 5 * ev.s2)) (fun x => by ring) ?_,
        ofList_zipInto (c := ch.v ^ 5) (fun _ _ _ => by ring) (by simp [zipInto_length]; omega),
        ofList_zipInto (c := ch.v ^ 4) (fun _ _ _ => by ring) (by simp [zipInto_length]; omega),
        ofList_zipInto (c := ch.v ^ 3) (fun _ _ _ => by ring) (by simp [zipInto_length]; omega),
        ofList_zipInto (c := ch.v ^ 2) (fun _ _ _ => by ring) (by simp [zipInto_length]; omega),
        ofList_zipInto (c := ch.v) (fun _ _ _ => by ring) (by simp [zipInto_length]; omega),
        ofList_zipInto (c := 1) (fun x hx y => by rw [List.eq_of_mem_replicate hx]; ring) (by simp; omega), ofList_replicate]
    · simp only [eval_add, eval_mul, eval_C, eval_zero, hr0, ea, eb, ec, e1, e2]
      ring
    · intro he
      have := congrArg List.length he
      simp [zipInto_length] at this

theorem computeWxiw_eq (dom : Domains F) (ch : Challenges F) (ev : Evals F) (z : List F) {w : List F}
    (hw : computeWxiw (fun x y => x + y) dom ch ev z = .ok w) (hz : z ≠ []) (ez : (ofList z).eval (ch.ξ * dom.root) = ev.zw) :
    ofList w * (X - C (ch.ξ * dom.root)) = ofList z - C ev.zw ∧ w.length + 1 = z.length := by
  rw [computeWxiw] at hw
  have hm := ofList_mapHead (f := fun x => x + -ev.zw) (c := -ev.zw) (l := z) (fun x => rfl) hz
  have e := divByZerofier_eq hw (by rw [hm, eval_add, ez, eval_C, add_neg_cancel])
  rw [hm, mapHead_length, C_neg] at e
  exact ⟨by rw [e.1]; ring, e.2⟩

theorem lagrangeLoop_eq (xi zh n root : F) (k : Nat) (w : F) {l : List F} (h : lagrangeLoop xi zh n root k w = .ok l) :
    l.length = k ∧ ∀ j < k, n * (xi - w * root ^ j) ≠ 0 ∧ l.getD j 0 * (n * (xi - w * root ^ j)) = w * root ^ j * zh := by
  induction k generalizing w l with
  | zero =>
    simp only [lagrangeLoop, Except.ok.injEq] at h
    subst h
    exact ⟨rfl, fun j hj => by omega⟩
  | succ k ih =>
    rw [lagrangeLoop] at h
    split_ifs at h with h0
    cases hl : lagrangeLoop xi zh n root k (w * root) with
    | error e => rw [hl] at h; cases h
    | ok r =>
      rw [hl] at h
      simp only [Except.map, Except.ok.injEq] at h
      subst h
      obtain ⟨h1, h2⟩ := ih _ hl
      refine ⟨by simp [h1], fun j hj => ?_⟩
      cases j with
      | zero =>
        refine ⟨by simpa using h0, ?_⟩
        rw [List.getD_cons_zero, pow_zero, mul_one, div_mul_cancel₀ _ h0]
      | succ j =>
        have := h2 j (by omega)
        rw [List.getD_cons_succ, pow_succ', ← mul_assoc]
        exact this

theorem lagrangeLoop_ok (xi zh n root : F) (k : Nat) (w : F) (h : ∀ j < k, n * (xi - w * root ^ j) ≠ 0) :
    ∃ l, lagrangeLoop xi zh n root k w = .ok l := by
  induction k generalizing w with
  | zero => exact ⟨[], rfl⟩
  | succ k ih =>
    obtain ⟨l, hl⟩ := ih (w * root) fun j hj => by
      have := h (j + 1) (by omega)
      rwa [pow_succ', ← mul_assoc] at this
    have h0 := h 0 (by omega)
    rw [pow_zero, mul_one] at h0
    exact ⟨_, by rw [lagrangeLoop, if_neg h0, hl]; rfl⟩

omit [DecidableEq F] in
theorem calculatePi_eq (pub l : List F) (h : pub.length ≤ l.length) :
    calculatePi pub l = -∑ j ∈ range pub.length, l.getD j 0 * pub.getD j 0 := by
  have key : ∀ (pub l : List F) (x : F), pub.length ≤ l.length →
      (List.zip pub l).foldl (fun pi x => pi - x.2 * x.1) x = x - ∑ j ∈ range pub.length, l.getD j 0 * pub.getD j 0 := by
    intro pub
    induction pub with
    | nil => intro l x _; simp
    | cons p pub ih =>
      intro l x h
      cases l with
      | nil => simp at h
      | cons y l =>
        rw [List.zip_cons_cons, List.foldl_cons, ih l _ (by simpa using h), List.length_cons, sum_range_succ']
        simp only [List.getD_cons_succ, List.getD_cons_zero]
        ring
  rw [calculatePi, key _ _ _ h, zero_sub]

end Verif.Plonk
