import Verif.Plonk.RoundLemmas

/-!
# Lemmas: the third round of the reference prover
-/

namespace Verif.Plonk

open Polynomial Finset
open Groth16 (getD_map_range resize map_range_getD interp_eval)

variable {F G H : Type} [Field F] [DecidableEq F] [AddCommGroup G] [Module F G]

/-- `mul4vec!` on vectors given as functions. -/
theorem mul4vec_eq (N : Nat) (fa fb fc fd ga gb gc gd : Nat → F) :
    mul4vec (reference (F := F) (G := G)) ((List.range N).map fa) ((List.range N).map fb) ((List.range N).map fc)
      ((List.range N).map fd) ((List.range N).map ga) ((List.range N).map gb) ((List.range N).map gc) ((List.range N).map gd) N =
    .ok ⟨(List.range N).map fun i => fa i * fb i * (fc i * fd i),
      (List.range N).map fun i => fa i * fb i * (fc i * gd i) + (fa i * fb i * (gc i * fd i) + (fa i * gb i * (fc i * fd i)
        + ga i * fb i * (fc i * fd i))),
      (List.range N).map fun i => fa i * fb i * (gc i * gd i) + (fa i * gb i * (fc i * gd i) + (fa i * gb i * (gc i * fd i)
        + (ga i * fb i * (fc i * gd i) + (ga i * fb i * (gc i * fd i) + ga i * gb i * (fc i * fd i))))),
      (List.range N).map fun i => ga i * gb i * (gc i * fd i) + (ga i * gb i * (fc i * gd i) + (ga i * fb i * (gc i * gd i)
        + fa i * gb i * (gc i * gd i))),
      (List.range N).map fun i => ga i * gb i * (gc i * gd i)⟩ := by
  have hm : ∀ x y : List F, (reference (F := F) (G := G)).mulVec x y = .ok (List.zipWith (· * ·) x y) := fun _ _ => rfl
  have ha : ∀ x y z : List F, (reference (F := F) (G := G)).addMulVec x y z =
    .ok (List.zipWith (· + ·) (List.zipWith (· * ·) y z) x) := fun _ _ _ => rfl
  simp only [mul4vec, reference_join, reference_join_nil, hm, ha, zipWith_map_range, ok_bind, List.getD_cons_zero,
    List.getD_cons_succ]
  rfl

omit [DecidableEq F] [AddCommGroup G] [Module F G] in
theorem mul4Post_eq {dom : Domains F} (hd : dom.Ok) (a b c d : List F) (i : Nat) :
    mul4Post dom a b c d i = a.getD i 0 + ((dom.root4 ^ i) ^ dom.size - 1) * b.getD i 0
      + ((dom.root4 ^ i) ^ dom.size - 1) ^ 2 * c.getD i 0 + ((dom.root4 ^ i) ^ dom.size - 1) ^ 3 * d.getD i 0 := by
  rw [mul4Post, hd.z2, hd.z3, hd.zh]
  split_ifs with h
  · simp only [smul_eq_mul]; ring
  · have : i % 4 = 0 := not_not.1 h
    simp [this, z1]

omit [DecidableEq F] [AddCommGroup G] [Module F G] in
theorem blindProduct_eq {dom : Domains F} (hd : dom.Ok) (a b c : List F) (i : Nat) :
    blindProduct dom a b c i = a.getD i 0 + b.getD i 0 + ((dom.root4 ^ i) ^ dom.size - 1) * c.getD i 0 := by
  rw [blindProduct, hd.zh]
  split_ifs with h
  · simp only [smul_eq_mul]
  · have : i % 4 = 0 := not_not.1 h
    simp [this, z1]

omit [DecidableEq F] [AddCommGroup G] [Module F G] in
theorem foldl_sub (f : Nat → F) (n : Nat) (x : F) :
    (List.range n).foldl (fun acc j => acc - f j) x = x - ∑ j ∈ range n, f j := by
  induction n with
  | zero => simp
  | succ n ih => rw [List.range_succ, List.foldl_append, ih, sum_range_succ]; simp only [List.foldl_cons, List.foldl_nil]; ring

/-- The Lagrange polynomials of the key. -/
def lag (key : Zkey F G H) (j : Nat) : List F := (key.lagrange.map Poly.coeffs).getD j []

/-- The polynomial of the public inputs. -/
noncomputable def piPoly (key : Zkey F G H) (z : List F) : F[X] :=
  -∑ j ∈ range key.nPublic, C (z.getD (j + 1) 0) * ofList (lag key j)

section Key

variable {key : Zkey F G H} {dom : Domains F} (hsz : dom.size = key.domainSize) (hw : key.WellFormed)
  (hp : key.PolysValid dom.root dom.root4)

omit [DecidableEq F] [AddCommGroup G] [Module F G] in
include hp in
theorem lag_spec {j : Nat} (hj : j < key.nPublic) : ∃ l, key.lagrange[j]? = some l ∧ lag key j = l.coeffs ∧
    (key.lagrange.map Poly.evals).getD j [] = l.evals := by
  have hl : j < key.lagrange.length := by rw [hp.lagrange]; exact hj
  exact ⟨key.lagrange[j], List.getElem?_eq_getElem hl, by simp [lag, hl], by simp [hl]⟩

omit [DecidableEq F] [AddCommGroup G] [Module F G] in
include hp in
theorem lag_evals {j i : Nat} (hj : j < key.nPublic) (hi : i < key.domainSize * 4) :
    ((key.lagrange.map Poly.evals).getD j []).getD i 0 = (ofList (lag key j)).eval (dom.root4 ^ i) := by
  obtain ⟨l, h1, h2, h3⟩ := lag_spec hp hj
  rw [h3, h2, (hp.lagrangePoly _ _ h1).1.evals, getD_map_range _ hi, polyValue_eq]

omit [DecidableEq F] [AddCommGroup G] [Module F G] in
include hp in
theorem lag_length {j : Nat} (hj : j < key.nPublic) : (lag key j).length ≤ key.domainSize := by
  obtain ⟨l, h1, h2, h3⟩ := lag_spec hp hj
  rw [h2]
  exact (hp.lagrangePoly _ _ h1).1.length

omit [DecidableEq F] [AddCommGroup G] [Module F G] in
include hw in
theorem public_le : key.nPublic ≤ key.domainSize := by
  have h1 := hw.publicA (key.nPublic - 1) (by have := hw.hasPublic; omega)
  have := (List.getElem?_eq_some_iff.1 h1).1
  have := hw.lengthA
  omega

omit [DecidableEq F] [AddCommGroup G] [Module F G] in
include hw in
theorem signal_public {j : Nat} (hj : j < key.nPublic) : key.signal .a j = j + 1 := by
  simp [Zkey.signal, hw.publicA j hj]

omit [DecidableEq F] [AddCommGroup G] [Module F G] in
include hw hp in
theorem publicTerm_eq (z : List F) {i : Nat} (hi : i < key.domainSize * 4) :
    publicTerm key.lagrange (bufOf key z .a) i = (piPoly key z).eval (dom.root4 ^ i) := by
  rw [publicTerm, hp.lagrange]
  simp only [smul_eq_mul]
  rw [foldl_sub (fun j => ((key.lagrange.map Poly.evals).getD j []).getD i 0 * (bufOf key z .a).getD j 0), zero_sub, piPoly,
    eval_neg, eval_finsetSum]
  congr 1
  refine sum_congr rfl fun j hj => ?_
  have hj := mem_range.1 hj
  rw [lag_evals hp hj hi, bufOf, getD_map_range _ (hj.trans_le (public_le hw)), signal_public hw hj, eval_mul, eval_C, mul_comm]

omit [AddCommGroup G] [Module F G] in
include hw hp in
theorem checkKey_ok : checkKey key = .ok () := by
  have ev : ∀ p : Poly F, p.Valid key.domainSize dom.root4 → atLeast (key.domainSize * 4) p.evals = .ok () :=
    fun p h => atLeast_ok (by rw [h.evals]; simp)
  have hs1 := hp.sigma .a
  have hs2 := hp.sigma .b
  have hs3 := hp.sigma .c
  simp only [Zkey.sigma] at hs1 hs2 hs3
  have hlag : ∀ ls : List (Poly F), (∀ l ∈ ls, l.Valid key.domainSize dom.root4) →
      ls.mapM (fun l => atLeast (key.domainSize * 4) l.evals) = .ok (ls.map fun _ => ()) := by
    intro ls
    induction ls with
    | nil => intro _; rfl
    | cons l ls ih =>
      intro h
      rw [List.mapM_cons, ev l (h l (by simp)), ih fun x hx => h x (by simp [hx])]
      rfl
  have hall : ∀ l ∈ key.lagrange, l.Valid key.domainSize dom.root4 := by
    intro l hl
    obtain ⟨j, hj, rfl⟩ := List.getElem_of_mem hl
    exact (hp.lagrangePoly j _ (List.getElem?_eq_getElem hj)).1
  have hpl := public_le hw
  simp only [checkKey, ev _ hp.qm, ev _ hp.ql, ev _ hp.qr, ev _ hp.qo, ev _ hp.qc, ev _ hs1, ev _ hs2, ev _ hs3, ok_bind,
    atLeast_ok (show 1 ≤ key.lagrange.length by rw [hp.lagrange]; exact hw.hasPublic), hlag _ hall,
    atLeast_ok (show key.lagrange.length ≤ (List.replicate key.domainSize ()).length by rw [hp.lagrange]; simpa using hpl)]

end Key

/-- The wires and the permutation as polynomials without blinding. -/
noncomputable def colPoly (key : Zkey F G H) (dom : Domains F) (z : List F) (col : Column) : F[X] := wireOf dom (bufOf key z col)

/-- The polynomial whose values round 3 computes first. -/
noncomputable def t0Poly (key : Zkey F G H) (dom : Domains F) (β γ α : F) (z : List F) : F[X] :=
  tPoly key β γ α (piPoly key z) (ofList (lag key 0)) (colPoly key dom z .a) (colPoly key dom z .b) (colPoly key dom z .c)
    (wireOf dom (bufZ key dom β γ z)) ((wireOf dom (bufZ key dom β γ z)).comp (C dom.root * X))

/-- The polynomial whose values round 3 computes second. -/
noncomputable def t1Poly (key : Zkey F G H) (dom : Domains F) (β γ α : F) (z b : List F) : F[X] :=
  tzPoly key dom.size β γ α (ofList (lag key 0)) (colPoly key dom z .a) (colPoly key dom z .b) (colPoly key dom z .c)
    (wireOf dom (bufZ key dom β γ z)) ((wireOf dom (bufZ key dom β γ z)).comp (C dom.root * X))
    (ofList (b.take 2).reverse) (ofList ((b.drop 2).take 2).reverse) (ofList ((b.drop 4).take 2).reverse)
    (ofList ((b.drop 6).take 3).reverse) ((ofList ((b.drop 6).take 3).reverse).comp (C dom.root * X))

section Round3

variable {key : Zkey F G H} {dom : Domains F} (hd : dom.Ok) (hsz : dom.size = key.domainSize) (hw : key.WellFormed)
  (hp : key.PolysValid dom.root dom.root4)

include hd hsz hw hp

theorem computeT_eq (β γ α : F) (z : List F) {b : List F} (hb : b.length = 11) :
    computeT (reference (F := F) (G := G)) key dom β γ α (wiresOf key dom z b)
      (interpolate dom (bufZ key dom β γ z) ((b.drop 6).take 3)) b =
    .ok (finishT dom ((List.range (dom.size * 4)).map fun i => (t0Poly key dom β γ α z).eval (dom.root4 ^ i))
      ((List.range (dom.size * 4)).map fun i => (t1Poly key dom β γ α z b).eval (dom.root4 ^ i)) (b.getD 9 0) (b.getD 10 0)) := by
  have h8 := size_ge hsz hw
  obtain ⟨b0, b1, b2, b3, b4, b5, b6, b7, b8, b9, b10, rfl⟩ : ∃ b0 b1 b2 b3 b4 b5 b6 b7 b8 b9 b10,
      b = [b0, b1, b2, b3, b4, b5, b6, b7, b8, b9, b10] := by
    match b, hb with
    | [b0, b1, b2, b3, b4, b5, b6, b7, b8, b9, b10], _ => exact ⟨_, _, _, _, _, _, _, _, _, _, _, rfl⟩
  have hs1 := hp.sigma .a
  have hs2 := hp.sigma .b
  have hs3 := hp.sigma .c
  simp only [Zkey.sigma] at hs1 hs2 hs3
  have evc : ∀ (col : Column) (l : List F), l.length = 2 → (interpolate dom (bufOf key z col) l).eval =
      (List.range (dom.size * 4)).map fun i => (colPoly key dom z col).eval (dom.root4 ^ i) := fun col l hl =>
    (interpolate_eq hd (by rw [bufOf_length, hsz]) (by omega)).2.2
  have evz : (interpolate dom (bufZ key dom β γ z) [b6, b7, b8]).eval =
      (List.range (dom.size * 4)).map fun i => (wireOf dom (bufZ key dom β γ z)).eval (dom.root4 ^ i) :=
    (interpolate_eq hd (by simp [bufZ, hsz]) (by simp; omega)).2.2
  have hid : ∀ (p : F[X]) (k : F), idTerm (fun x y => x + y) dom β γ k
      ((List.range (dom.size * 4)).map fun i => p.eval (dom.root4 ^ i)) =
      (List.range (dom.size * 4)).map fun i => p.eval (dom.root4 ^ i) + (β * dom.root4 ^ i * k + γ) := fun p k =>
    List.map_congr_left fun i hi => by rw [getD_map_range _ (List.mem_range.1 hi)]
  have hsg : ∀ (p : F[X]) (s : Poly F), s.Valid key.domainSize dom.root4 → sigmaTerm (fun x y => x + y) dom β γ s
      ((List.range (dom.size * 4)).map fun i => p.eval (dom.root4 ^ i)) =
      (List.range (dom.size * 4)).map fun i => p.eval (dom.root4 ^ i) + ((ofList s.coeffs).eval (dom.root4 ^ i) * β + γ) :=
    fun p s hs => List.map_congr_left fun i hi => by
      have hi := List.mem_range.1 hi
      rw [getD_map_range _ hi, hs.evals, getD_map_range _ (by rw [← hsz]; exact hi), polyValue_eq]
  have hsh : shifted dom ((List.range (dom.size * 4)).map fun i => (wireOf dom (bufZ key dom β γ z)).eval (dom.root4 ^ i)) =
      (List.range (dom.size * 4)).map fun i =>
        ((wireOf dom (bufZ key dom β γ z)).comp (C dom.root * X)).eval (dom.root4 ^ i) :=
    List.map_congr_left fun i hi => by
      rw [getD_map_range _ (Nat.mod_lt _ (by omega)), eval_comp]
      congr 1
      simp only [eval_mul, eval_C, eval_X]
      rw [hd.root4.eq_orderOf, pow_mod_orderOf, pow_add, pow_add, pow_orderOf_eq_one, one_mul, hd.root]
  have hbl : ∀ x y : F, blindLine dom x y = (List.range (dom.size * 4)).map fun i => (ofList [x, y]).eval (dom.root4 ^ i) :=
    fun x y => List.map_congr_left fun i _ => by
      simp only [ofList, smul_eq_mul, eval_add, eval_mul, eval_C, eval_X, eval_zero]; ring
  have hbq : ∀ s x y w : F, blindSquare dom s x y w =
      (List.range (dom.size * 4)).map fun i => ((ofList [x, y, w]).comp (C s * X)).eval (dom.root4 ^ i) :=
    fun s x y w => List.map_congr_left fun i _ => by
      simp only [ofList, smul_eq_mul, eval_comp, eval_add, eval_mul, eval_C, eval_X, eval_zero]; ring
  have w1 : (wiresOf key dom z [b0, b1, b2, b3, b4, b5, b6, b7, b8, b9, b10]).a.eval = _ := evc .a [b0, b1] rfl
  have w2 : (wiresOf key dom z [b0, b1, b2, b3, b4, b5, b6, b7, b8, b9, b10]).b.eval = _ := evc .b [b2, b3] rfl
  have w3 : (wiresOf key dom z [b0, b1, b2, b3, b4, b5, b6, b7, b8, b9, b10]).c.eval = _ := evc .c [b4, b5] rfl
  have w4 : (wiresOf key dom z [b0, b1, b2, b3, b4, b5, b6, b7, b8, b9, b10]).a.buffer = bufOf key z .a := rfl
  have b4' : (reference (F := F) (G := G)).addPub = fun x y => x + y := rfl
  have hm : ∀ x y : List F, (reference (F := F) (G := G)).mulVec x y = .ok (List.zipWith (· * ·) x y) := fun _ _ => rfl
  simp only [computeT, local_reference, checkKey_ok hw hp, ok_bind, reference_join, reference_join_nil, List.getD_cons_zero,
    List.getD_cons_succ, List.drop_succ_cons, List.drop_zero, List.take_succ_cons, List.take_zero, evz, w1, w2, w3, b4', hm,
    hid, hsg _ _ hs1, hsg _ _ hs2, hsg _ _ hs3, hsh, hbl, hbq, ← hsz, mul4vec_eq, zipWith_map_range]
  show Except.ok _ = _
  congr 1
  have hq : ∀ (s : Poly F) {i : Nat}, s.Valid key.domainSize dom.root4 → i < dom.size * 4 →
      s.evals.getD i 0 = (ofList s.coeffs).eval (dom.root4 ^ i) := fun s i hs hi => by
    rw [hs.evals, getD_map_range _ (by rw [← hsz]; exact hi), polyValue_eq]
  have h0 : 0 < key.nPublic := hw.hasPublic
  refine congrArg₂ (fun x y => finishT dom x y b9 b10) ?_ ?_
  · refine List.map_congr_left fun i hi => ?_
    have hi := List.mem_range.1 hi
    have hi' : i < key.domainSize * 4 := by rw [← hsz]; exact hi
    rw [gateTerm]
    simp only [getD_map_range _ hi, w1, w2, w3, w4, hq _ hp.qm hi, hq _ hp.ql hi, hq _ hp.qr hi, hq _ hp.qo hi, hq _ hp.qc hi,
      lag_evals hp h0 hi', publicTerm_eq hw hp z hi', smul_eq_mul, t0Poly, tPoly, eval_add, eval_sub, eval_mul, eval_C, eval_X,
      eval_pow, eval_one]
    ring
  · refine List.map_congr_left fun i hi => ?_
    have hi := List.mem_range.1 hi
    have hi' : i < key.domainSize * 4 := by rw [← hsz]; exact hi
    have e1 : (C (1 : F) * X : F[X]) = X := by rw [C_1, one_mul]
    rw [gateBlind]
    simp only [getD_map_range _ hi, mul4Post_eq hd, blindProduct_eq hd, hq _ hp.qm hi, hq _ hp.ql hi, hq _ hp.qr hi,
      hq _ hp.qo hi, lag_evals hp h0 hi', smul_eq_mul, t1Poly, tzPoly, mul4Poly, e1, comp_X, List.drop_succ_cons, List.drop_zero,
      List.take_succ_cons, List.take_zero, List.reverse_cons, List.reverse_nil, List.nil_append, List.cons_append, eval_add,
      eval_sub, eval_mul, eval_C, eval_X, eval_pow, eval_one]
    ring

omit [DecidableEq F] [AddCommGroup G] [Module F G] hw hp in
theorem wireOf_eval (f : Nat → F) {i : Nat} (hi : i < dom.size) :
    (wireOf dom ((List.range key.domainSize).map f)).eval (dom.root ^ i) = f i := by
  rw [wireOf, interp_eval hd.prim _ hi, getD_map_range _ (by rw [← hsz]; exact hi)]

omit [DecidableEq F] [AddCommGroup G] [Module F G] in
/-- The polynomial vanishes on the domain if all gates hold. -/
theorem t0_vanish (β γ α : F) {z : List F} (hsat : key.Satisfied dom.root z)
    (hden : ∀ i < key.domainSize, denAt key dom β γ z i ≠ 0) {i : Nat} (hi : i < dom.size) :
    (t0Poly key dom β γ α z).eval (dom.root ^ i) = 0 := by
  have h8 := size_ge hsz hw
  have hi' : i < key.domainSize := by rw [← hsz]; exact hi
  have htot := perm_prod hp (fun s => z.getD s 0) β γ
  simp only [Zkey.label] at htot
  change ∏ i ∈ range key.domainSize, numAt key dom β γ z i = ∏ i ∈ range key.domainSize, denAt key dom β γ z i at htot
  have hprod : ∀ k ≤ key.domainSize, ∏ j ∈ range k, denAt key dom β γ z j ≠ 0 := fun k hk =>
    prod_ne_zero_iff.2 fun j hj => hden j ((mem_range.1 hj).trans_le hk)
  have col : ∀ x, (colPoly key dom z x).eval (dom.root ^ i) = z.getD (key.signal x i) 0 := fun x => wireOf_eval hd hsz _ hi
  have hz : (wireOf dom (bufZ key dom β γ z)).eval (dom.root ^ i) =
      (∏ j ∈ range i, numAt key dom β γ z j) / ∏ j ∈ range i, denAt key dom β γ z j := wireOf_eval hd hsz _ hi
  have hzw : ((wireOf dom (bufZ key dom β γ z)).comp (C dom.root * X)).eval (dom.root ^ i) =
      (∏ j ∈ range (i + 1), numAt key dom β γ z j) / ∏ j ∈ range (i + 1), denAt key dom β γ z j := by
    rw [eval_comp]
    simp only [eval_mul, eval_C, eval_X]
    rw [← pow_succ']
    by_cases h : i + 1 < dom.size
    · exact wireOf_eval hd hsz _ h
    · have e : i + 1 = dom.size := by omega
      rw [e, hd.prim.pow_eq_one]
      have := wireOf_eval (key := key) hd hsz (fun i => (∏ j ∈ range i, numAt key dom β γ z j) / ∏ j ∈ range i, denAt key dom β γ z j)
        (i := 0) (by omega)
      rw [pow_zero] at this
      rw [bufZ, this, hsz, htot, range_zero, prod_empty, prod_empty, div_one, div_self (hprod _ le_rfl)]
  have hl0 : ∀ j < key.nPublic, (ofList (lag key j)).eval (dom.root ^ i) = if i = j then 1 else 0 := fun j hj => by
    obtain ⟨l, h1, h2, h3⟩ := lag_spec hp hj
    rw [h2, ← polyValue_eq, (hp.lagrangePoly _ _ h1).2 i hi']
  have hpi : (piPoly key z).eval (dom.root ^ i) = -(if i < key.nPublic then z.getD (i + 1) 0 else 0) := by
    rw [piPoly, eval_neg, eval_finsetSum]
    congr 1
    rw [sum_congr rfl (g := fun j => if i = j then z.getD (j + 1) 0 else 0) fun j hj => by
      rw [eval_mul, eval_C, hl0 j (mem_range.1 hj)]; split_ifs <;> simp]
    rw [sum_ite_eq]
    simp only [mem_range]
  have hg := hsat i hi'
  simp only [t0Poly, tPoly, eval_add, eval_sub, eval_mul, eval_C, eval_X, eval_pow, eval_one, col, hz, hzw, hpi,
    hl0 0 hw.hasPublic, polyValue_eq] at hg ⊢
  have hperm : (z.getD (key.signal .a i) 0 + β * dom.root ^ i + γ) * (z.getD (key.signal .b i) 0 + β * dom.root ^ i * key.vk.k1 + γ)
      * (z.getD (key.signal .c i) 0 + β * dom.root ^ i * key.vk.k2 + γ) *
      ((∏ j ∈ range i, numAt key dom β γ z j) / ∏ j ∈ range i, denAt key dom β γ z j) =
      (z.getD (key.signal .a i) 0 + β * (ofList key.s1.coeffs).eval (dom.root ^ i) + γ)
      * (z.getD (key.signal .b i) 0 + β * (ofList key.s2.coeffs).eval (dom.root ^ i) + γ)
      * (z.getD (key.signal .c i) 0 + β * (ofList key.s3.coeffs).eval (dom.root ^ i) + γ) *
      ((∏ j ∈ range (i + 1), numAt key dom β γ z j) / ∏ j ∈ range (i + 1), denAt key dom β γ z j) := by
    have e1 : (z.getD (key.signal .a i) 0 + β * dom.root ^ i + γ)
        * (z.getD (key.signal .b i) 0 + β * dom.root ^ i * key.vk.k1 + γ)
        * (z.getD (key.signal .c i) 0 + β * dom.root ^ i * key.vk.k2 + γ) = numAt key dom β γ z i := by
      simp only [numAt]; ring
    have e2 : (z.getD (key.signal .a i) 0 + β * (ofList key.s1.coeffs).eval (dom.root ^ i) + γ)
        * (z.getD (key.signal .b i) 0 + β * (ofList key.s2.coeffs).eval (dom.root ^ i) + γ)
        * (z.getD (key.signal .c i) 0 + β * (ofList key.s3.coeffs).eval (dom.root ^ i) + γ) = denAt key dom β γ z i := by
      simp only [denAt, polyValue_eq]
    rw [e1, e2, prod_range_succ, prod_range_succ]
    have h1 := hden i hi'
    have h2 := hprod i hi'.le
    field_simp
  have hlast : (if i = 0 then (1 : F) else 0) *
      ((∏ j ∈ range i, numAt key dom β γ z j) / (∏ j ∈ range i, denAt key dom β γ z j) - 1) = 0 := by
    split_ifs with h
    · subst h; simp
    · simp
  linear_combination hg + α * hperm + α ^ 2 * hlast

/-- What round 3 returns: parts of a polynomial that is the quotient of the constraint polynomial. -/
theorem round3_poly (β γ α : F) {z : List F} (hsat : key.Satisfied dom.root z)
    (hden : ∀ i < key.domainSize, denAt key dom β γ z i ≠ 0) {b : List F} (hb : b.length = 11) :
    ∃ t, computeT (reference (F := F) (G := G)) key dom β γ α (wiresOf key dom z b)
        (interpolate dom (bufZ key dom β γ z) ((b.drop 6).take 3)) b = .ok t ∧
      t.1.length = dom.size + 1 ∧ t.2.1.length = dom.size + 1 ∧ t.2.2.length = dom.size + 6 ∧
      (ofList t.1 + X ^ dom.size * ofList t.2.1 + X ^ (2 * dom.size) * ofList t.2.2) * (X ^ dom.size - 1) =
        tPoly key β γ α (piPoly key z) (ofList (lag key 0)) (ofList (wiresOf key dom z b).a.poly)
          (ofList (wiresOf key dom z b).b.poly) (ofList (wiresOf key dom z b).c.poly)
          (ofList (interpolate dom (bufZ key dom β γ z) ((b.drop 6).take 3)).poly)
          ((ofList (interpolate dom (bufZ key dom β γ z) ((b.drop 6).take 3)).poly).comp (C dom.root * X)) := by
  have h8 := size_ge hsz hw
  have hpos := hd.pos
  refine ⟨_, computeT_eq hd hsz hw hp β γ α z hb, ?_⟩
  obtain ⟨q, hq⟩ := dvd_of_vanish hpos hd.prim (p := t0Poly key dom β γ α z) fun i hi =>
    t0_vanish hd hsz hw hp β γ α hsat hden hi
  have pa := (interpolate_eq hd (buffer := bufOf key z .a) (blind := b.take 2) (by rw [bufOf_length, hsz]) (by simp; omega)).1
  have pb := (interpolate_eq hd (buffer := bufOf key z .b) (blind := (b.drop 2).take 2) (by rw [bufOf_length, hsz]) (by simp; omega)).1
  have pc := (interpolate_eq hd (buffer := bufOf key z .c) (blind := (b.drop 4).take 2) (by rw [bufOf_length, hsz]) (by simp; omega)).1
  have pz := (interpolate_eq hd (buffer := bufZ key dom β γ z) (blind := (b.drop 6).take 3) (by simp [bufZ, hsz]) (by simp; omega)).1
  have hfull := tPoly_blind key dom.size β γ α (piPoly key z) (ofList (lag key 0)) (colPoly key dom z .a) (colPoly key dom z .b)
    (colPoly key dom z .c) (wireOf dom (bufZ key dom β γ z)) ((wireOf dom (bufZ key dom β γ z)).comp (C dom.root * X))
    (ofList (b.take 2).reverse) (ofList ((b.drop 2).take 2).reverse) (ofList ((b.drop 4).take 2).reverse)
    (ofList ((b.drop 6).take 3).reverse) ((ofList ((b.drop 6).take 3).reverse).comp (C dom.root * X))
  have hcomp : (ofList (interpolate dom (bufZ key dom β γ z) ((b.drop 6).take 3)).poly).comp (C dom.root * X) =
      (wireOf dom (bufZ key dom β γ z)).comp (C dom.root * X)
        + (X ^ dom.size - 1) * (ofList ((b.drop 6).take 3).reverse).comp (C dom.root * X) := by
    rw [pz, add_comp, mul_comp, zh_comp hd.prim.pow_eq_one]
  change _ = t0Poly key dom β γ α z + t1Poly key dom β γ α z b * (X ^ dom.size - 1) at hfull
  have deg : ∀ {l : List F} {n : Nat}, 0 < n → l.length ≤ n → (ofList l).natDegree ≤ n - 1 := fun {l n} hn hl =>
    natDegree_lt_of_degree hn ((ofList_degree l).trans_le (by exact_mod_cast hl))
  have hkey : ∀ p ∈ [key.qm, key.ql, key.qr, key.qo, key.qc, key.s1, key.s2, key.s3],
      (ofList p.coeffs).natDegree ≤ dom.size - 1 := by
    intro p hmem
    refine deg hpos ?_
    rw [hsz]
    have hs1 := hp.sigma .a
    have hs2 := hp.sigma .b
    have hs3 := hp.sigma .c
    simp only [Zkey.sigma] at hs1 hs2 hs3
    simp only [List.mem_cons, List.not_mem_nil, or_false] at hmem
    rcases hmem with rfl | rfl | rfl | rfl | rfl | rfl | rfl | rfl
    exacts [hp.qm.length, hp.ql.length, hp.qr.length, hp.qo.length, hp.qc.length, hs1.length, hs2.length, hs3.length]
  have hlag : ∀ j < key.nPublic, (ofList (lag key j)).natDegree ≤ dom.size - 1 := fun j hj =>
    deg hpos (by rw [hsz]; exact lag_length hp hj)
  have hpi : (piPoly key z).natDegree ≤ dom.size - 1 := by
    rw [piPoly, natDegree_neg]
    refine natDegree_sum_le_of_forall_le _ _ fun j hj => ?_
    exact (natDegree_C_mul_le _ _).trans (hlag j (mem_range.1 hj))
  have hcomp_deg : ∀ p : F[X], (p.comp (C dom.root * X)).natDegree ≤ p.natDegree := fun p => by
    refine natDegree_comp_le.trans ?_
    calc p.natDegree * (C dom.root * X : F[X]).natDegree ≤ p.natDegree * 1 :=
          Nat.mul_le_mul_left _ ((natDegree_C_mul_le _ _).trans natDegree_X_le)
      _ = p.natDegree := mul_one _
  have hwire : ∀ l : List F, (wireOf dom l).natDegree ≤ dom.size - 1 := fun l => natDegree_lt_of_degree hpos (wireOf_degree hd l)
  have d0 : (t0Poly key dom β γ α z).natDegree ≤ 3 * (dom.size - 1) + (dom.size - 1) :=
    tPoly_degree key β γ α hpos le_rfl le_rfl (by omega) (hwire _) (hwire _) (hwire _) (hwire _)
      ((hcomp_deg _).trans (hwire _)) hpi (hlag 0 hw.hasPublic) hkey
  have hblind : ∀ (l r : List F) {k : Nat}, r.length ≤ k → 0 < k →
      (wireOf dom l + (X ^ dom.size - 1) * ofList r).natDegree ≤ dom.size + (k - 1) := by
    intro l r k hr hk
    refine natDegree_add_le_of_degree_le ((hwire l).trans (by omega)) ?_
    refine (natDegree_mul_le_of_le (m := dom.size) (n := k - 1) ?_ (deg hk hr))
    simpa using (natDegree_X_pow_sub_C (n := dom.size) (r := (1 : F))).le
  have e2 : (dom.size + 1 = dom.size + (2 - 1)) := by omega
  have dfull : (tPoly key β γ α (piPoly key z) (ofList (lag key 0)) (colPoly key dom z .a + (X ^ dom.size - 1) * ofList (b.take 2).reverse)
      (colPoly key dom z .b + (X ^ dom.size - 1) * ofList ((b.drop 2).take 2).reverse)
      (colPoly key dom z .c + (X ^ dom.size - 1) * ofList ((b.drop 4).take 2).reverse)
      (wireOf dom (bufZ key dom β γ z) + (X ^ dom.size - 1) * ofList ((b.drop 6).take 3).reverse)
      ((wireOf dom (bufZ key dom β γ z)).comp (C dom.root * X)
        + (X ^ dom.size - 1) * (ofList ((b.drop 6).take 3).reverse).comp (C dom.root * X))).natDegree
      ≤ 3 * (dom.size + 1) + (dom.size + 2) := by
    refine tPoly_degree key β γ α hpos (by omega) (by omega) (by omega) (hblind _ _ (k := 2) (by simp) (by omega))
      (hblind _ _ (k := 2) (by simp) (by omega)) (hblind _ _ (k := 2) (by simp) (by omega))
      (hblind _ _ (k := 3) (by simp) (by omega)) ?_ hpi (hlag 0 hw.hasPublic) hkey
    rw [← hcomp]
    refine (hcomp_deg _).trans ?_
    rw [pz]
    exact hblind _ _ (k := 3) (by simp) (by omega)
  rw [hfull] at dfull
  have hmonic : (X ^ dom.size - 1 : F[X]).Monic := monic_X_pow_sub_C 1 hpos.ne'
  have hzdeg : (X ^ dom.size - 1 : F[X]).natDegree = dom.size := by
    simpa using natDegree_X_pow_sub_C (n := dom.size) (r := (1 : F))
  have hsum : t0Poly key dom β γ α z + t1Poly key dom β γ α z b * (X ^ dom.size - 1) =
      (q + t1Poly key dom β γ α z b) * (X ^ dom.size - 1) := by rw [hq]; ring
  have quot : ∀ {p : F[X]} {k : Nat}, (p * (X ^ dom.size - 1)).natDegree ≤ dom.size + k → p.natDegree ≤ k := by
    intro p k h
    by_cases h0 : p = 0
    · simp [h0]
    · rw [natDegree_mul h0 hmonic.ne_zero, hzdeg] at h
      omega
  have dq : (q + t1Poly key dom β γ α z b).natDegree ≤ dom.size * 3 + 5 := by
    refine quot ?_
    rw [← hsum]
    exact dfull.trans (by omega)
  have dq1 : q.natDegree ≤ dom.size * 3 + 5 := by
    refine quot ?_
    rw [← hq]
    exact d0.trans (by omega)
  have d1 : (t1Poly key dom β γ α z b).natDegree ≤ dom.size * 3 + 5 := by
    have e : t1Poly key dom β γ α z b = (q + t1Poly key dom β γ α z b) - q := by ring
    rw [e]
    exact (natDegree_sub_le_of_le dq dq1).trans (by simp)
  have lt : ∀ {p : F[X]} {k m : Nat}, p.natDegree ≤ k → k < m → p.degree < (m : Nat) := fun {p k m} h hk =>
    (degree_le_of_natDegree_le h).trans_lt (by exact_mod_cast hk)
  obtain ⟨h1, h2, h3, h4⟩ := finishT_eq hd (by omega) (lt d0 (by omega)) (lt d1 (by omega)) hq (lt dq (by omega)) (b.getD 9 0) (b.getD 10 0) rfl
  refine ⟨h2, h3, h4, ?_⟩
  have wa : (wiresOf key dom z b).a = interpolate dom (bufOf key z .a) (b.take 2) := rfl
  have wb : (wiresOf key dom z b).b = interpolate dom (bufOf key z .b) ((b.drop 2).take 2) := rfl
  have wc : (wiresOf key dom z b).c = interpolate dom (bufOf key z .c) ((b.drop 4).take 2) := rfl
  simp only [colPoly] at hfull
  rw [h1, ← hsum, ← hfull, hcomp, wa, wb, wc, pz, pa, pb, pc]

end Round3

end Verif.Plonk
