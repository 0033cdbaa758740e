import Verif.Plonk.PermLemmas

/-!
# Lemmas: the quotient polynomial of round 3
-/

namespace Verif.Plonk

open Polynomial Finset
open Groth16 (getD_map_range)

variable {F G H : Type} [Field F]

/-- The polynomial that vanishes on the domain. -/
noncomputable def tPoly (key : Zkey F G H) (β γ α : F) (pi l0 a b c z zw : F[X]) : F[X] :=
  ofList key.qm.coeffs * a * b + ofList key.ql.coeffs * a + ofList key.qr.coeffs * b + ofList key.qo.coeffs * c
    + ofList key.qc.coeffs + pi
    + C α * ((a + C β * X + C γ) * (b + C β * X * C key.vk.k1 + C γ) * (c + C β * X * C key.vk.k2 + C γ) * z
      - (a + C β * ofList key.s1.coeffs + C γ) * (b + C β * ofList key.s2.coeffs + C γ)
        * (c + C β * ofList key.s3.coeffs + C γ) * zw)
    + C α ^ 2 * l0 * (z - 1)

/-- The four blinding terms of a product of four factors. -/
noncomputable def mul4Poly (zh a b c d ap bp cp dp : F[X]) : F[X] :=
  ap * b * c * d + a * bp * c * d + a * b * cp * d + a * b * c * dp
    + zh * (ap * bp * c * d + ap * b * cp * d + ap * b * c * dp + a * bp * cp * d + a * bp * c * dp + a * b * cp * dp)
    + zh ^ 2 * (a * bp * cp * dp + ap * b * cp * dp + ap * bp * c * dp + ap * bp * cp * d)
    + zh ^ 3 * (ap * bp * cp * dp)

/-- The quotient by `Xⁿ - 1` of the part that the blinding adds. -/
noncomputable def tzPoly (key : Zkey F G H) (n : Nat) (β γ α : F) (l0 a b c z zw ba bb bc bz bzw : F[X]) : F[X] :=
  ofList key.qm.coeffs * (a * bb + b * ba + (X ^ n - 1) * (ba * bb)) + ofList key.ql.coeffs * ba
    + ofList key.qr.coeffs * bb + ofList key.qo.coeffs * bc
    + C α * (mul4Poly (X ^ n - 1) (a + C β * X + C γ) (b + C β * X * C key.vk.k1 + C γ) (c + C β * X * C key.vk.k2 + C γ) z
        ba bb bc bz
      - mul4Poly (X ^ n - 1) (a + C β * ofList key.s1.coeffs + C γ) (b + C β * ofList key.s2.coeffs + C γ)
        (c + C β * ofList key.s3.coeffs + C γ) zw ba bb bc bzw)
    + C α ^ 2 * l0 * bz

theorem tPoly_blind (key : Zkey F G H) (n : Nat) (β γ α : F) (pi l0 a b c z zw ba bb bc bz bzw : F[X]) :
    tPoly key β γ α pi l0 (a + (X ^ n - 1) * ba) (b + (X ^ n - 1) * bb) (c + (X ^ n - 1) * bc) (z + (X ^ n - 1) * bz)
      (zw + (X ^ n - 1) * bzw) =
    tPoly key β γ α pi l0 a b c z zw + tzPoly key n β γ α l0 a b c z zw ba bb bc bz bzw * (X ^ n - 1) := by
  simp only [tPoly, tzPoly, mul4Poly]
  ring

theorem tPoly_degree (key : Zkey F G H) (β γ α : F) {pi l0 a b c z zw : F[X]} {n k m : Nat} (hn : 0 < n) (hk : n - 1 ≤ k)
    (hm : n - 1 ≤ m) (hk1 : 1 ≤ k) (ha : a.natDegree ≤ k) (hb : b.natDegree ≤ k) (hc : c.natDegree ≤ k) (hz : z.natDegree ≤ m)
    (hzw : zw.natDegree ≤ m) (hpi : pi.natDegree ≤ n - 1) (hl : l0.natDegree ≤ n - 1)
    (hq : ∀ p ∈ [key.qm, key.ql, key.qr, key.qo, key.qc, key.s1, key.s2, key.s3], (ofList p.coeffs).natDegree ≤ n - 1) :
    (tPoly key β γ α pi l0 a b c z zw).natDegree ≤ 3 * k + m := by
  have hqm := hq key.qm (by simp)
  have hql := hq key.ql (by simp)
  have hqr := hq key.qr (by simp)
  have hqo := hq key.qo (by simp)
  have hqc := hq key.qc (by simp)
  have hs1 := hq key.s1 (by simp)
  have hs2 := hq key.s2 (by simp)
  have hs3 := hq key.s3 (by simp)
  have mul : ∀ {p q : F[X]} {i j d : Nat}, p.natDegree ≤ i → q.natDegree ≤ j → i + j ≤ d → (p * q).natDegree ≤ d :=
    fun hp hq h => (natDegree_mul_le_of_le hp hq).trans h
  have cst : ∀ (x : F) (d : Nat), (C x : F[X]).natDegree ≤ d := fun x d => by simp
  have hX : (X : F[X]).natDegree ≤ 1 := natDegree_X_le
  have wid : ∀ {p : F[X]} (x : F), p.natDegree ≤ k → (p + C β * X * C x + C γ).natDegree ≤ k := fun x hp =>
    natDegree_add_le_of_degree_le (natDegree_add_le_of_degree_le hp
      (mul (mul (cst β 0) hX (le_refl _)) (cst x 0) (by omega))) (cst _ _)
  have wid' : ∀ {p : F[X]}, p.natDegree ≤ k → (p + C β * X + C γ).natDegree ≤ k := fun hp =>
    natDegree_add_le_of_degree_le (natDegree_add_le_of_degree_le hp (mul (cst β 0) hX (by omega))) (cst _ _)
  have wsg : ∀ {p s : F[X]}, p.natDegree ≤ k → s.natDegree ≤ n - 1 → (p + C β * s + C γ).natDegree ≤ k := fun hp hs =>
    natDegree_add_le_of_degree_le (natDegree_add_le_of_degree_le hp (mul (cst β 0) hs (by omega))) (cst _ _)
  unfold tPoly
  refine natDegree_add_le_of_degree_le (natDegree_add_le_of_degree_le (natDegree_add_le_of_degree_le
    (natDegree_add_le_of_degree_le (natDegree_add_le_of_degree_le (natDegree_add_le_of_degree_le (natDegree_add_le_of_degree_le
      ?_ ?_) ?_) ?_) ?_) ?_) ?_) ?_
  · exact mul (mul hqm ha le_rfl) hb (by omega)
  · exact mul hql ha (by omega)
  · exact mul hqr hb (by omega)
  · exact mul hqo hc (by omega)
  · exact hqc.trans (by omega)
  · exact hpi.trans (by omega)
  · refine mul (cst α 0) ?_ (le_of_eq (zero_add _))
    refine (natDegree_sub_le_of_le ?_ ?_).trans (le_of_eq (max_self _))
    · exact mul (mul (mul (wid' ha) (wid _ hb) le_rfl) (wid _ hc) le_rfl) hz (by omega)
    · exact mul (mul (mul (wsg ha hs1) (wsg hb hs2) le_rfl) (wsg hc hs3) le_rfl) hzw (by omega)
  · refine mul (i := n - 1) (j := m) ?_ ?_ (by omega)
    · rw [← C_pow]; exact mul (cst _ 0) hl (by omega)
    · exact (natDegree_sub_le_of_le hz (by simp : (1 : F[X]).natDegree ≤ 0)).trans (by simp)

theorem zh_comp {n : Nat} {w : F} (h : w ^ n = 1) : (X ^ n - 1 : F[X]).comp (C w * X) = X ^ n - 1 := by
  simp only [sub_comp, pow_comp, X_comp, one_comp, mul_pow, ← C_pow, h, C_1, one_mul]

theorem natDegree_lt_of_degree {p : F[X]} {n : Nat} (hn : 0 < n) (h : p.degree < n) : p.natDegree ≤ n - 1 := by
  by_cases h0 : p = 0
  · simp [h0]
  · have := (natDegree_lt_iff_degree_lt h0).2 h; omega

/-- `t1`, `t2` and `t3` are the parts of the quotient. -/
theorem finishT_eq {dom : Domains F} (hd : dom.Ok) (h6 : 6 ≤ dom.size) {t0 tz q : F[X]}
    (h0 : t0.degree < (dom.size * 4 : Nat)) (hz : tz.degree < (dom.size * 4 : Nat)) (hq : t0 = q * (X ^ dom.size - 1))
    (hqz : (q + tz).degree < (dom.size * 3 + 6 : Nat)) (b9 b10 : F) {t : List F × List F × List F}
    (ht : finishT dom ((List.range (dom.size * 4)).map fun i => t0.eval (dom.root4 ^ i))
      ((List.range (dom.size * 4)).map fun i => tz.eval (dom.root4 ^ i)) b9 b10 = t) :
    ofList t.1 + X ^ dom.size * ofList t.2.1 + X ^ (2 * dom.size) * ofList t.2.2 = q + tz ∧
    t.1.length = dom.size + 1 ∧ t.2.1.length = dom.size + 1 ∧ t.2.2.length = dom.size + 6 := by
  rw [finishT, ifftOn_eval hd h0, ifftOn_eval hd hz, divZh_eq hd.pos (by omega) hq, zipWith_map_range] at ht
  have e : (List.range (dom.size * 4)).map (fun i => q.coeff i + tz.coeff i) = (List.range (dom.size * 4)).map (q + tz).coeff :=
    List.map_congr_left fun i _ => (coeff_add _ _ _).symm
  rw [e, splitT] at ht
  set l := (List.range (dom.size * 4)).map (q + tz).coeff with hl
  have hll : l.length = dom.size * 4 := by simp [hl]
  have hpos := hd.pos
  subst ht
  have hne : ∀ k m, k < dom.size * 4 → 0 < m → (l.drop k).take m ≠ [] := by
    intro k m hk hm h
    have := congrArg List.length h
    simp [hll] at this
    omega
  simp only []
  rw [ofList_append, ofList_append, ofList_mapHead (c := -b9) (fun x => by ring) (hne _ _ (by omega) (by omega)),
    ofList_mapHead (c := -b10) (fun x => by ring) (hne _ _ (by omega) (by omega)), mapHead_length]
  refine ⟨?_, by simp [hll]; omega, by simp [hll, mapHead_length]; omega, by simp [hll, mapHead_length]; omega⟩
  have el : ofList (l.take (dom.size * 3 + 6)) = q + tz := by
    rw [hl, ← List.map_take, List.take_range, min_eq_left (by omega), ofList_range hqz]
  have es : ∀ k, ofList (l.take (dom.size + (dom.size + k))) = ofList (l.take dom.size)
      + X ^ (l.take dom.size).length * (ofList ((l.drop dom.size).take dom.size)
        + X ^ ((l.drop dom.size).take dom.size).length * ofList ((l.drop (2 * dom.size)).take k)) := by
    intro k
    rw [List.take_add, ofList_append, List.take_add, ofList_append, List.drop_drop, Nat.two_mul]
  rw [← el, show dom.size * 3 + 6 = dom.size + (dom.size + (dom.size + 6)) by omega, es]
  simp only [List.length_take, List.length_drop, hll, show min dom.size (dom.size * 4) = dom.size by omega,
    show min dom.size (dom.size * 4 - dom.size) = dom.size by omega, ofList, C_neg, mul_zero, add_zero]
  ring

end Verif.Plonk
