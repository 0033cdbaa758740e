import Verif.Plonk.QuotientLemmas

/-!
# Lemmas: the first three rounds of the reference prover
-/

namespace Verif.Plonk

open Polynomial Finset
open Groth16 (getD_map_range resize map_range_getD interp_eval)

variable {F G H : Type} [Field F] [DecidableEq F] [AddCommGroup G] [Module F G]

theorem atLeast_ok {α : Type} {n : Nat} {l : List α} (h : n ≤ l.length) : atLeast n l = .ok () := by
  simp [atLeast, Nat.not_lt.2 h]

theorem ok_bind {α β : Type} (x : α) (f : α → Except Err β) : (Except.ok x >>= f) = f x := rfl

theorem error_bind {α β : Type} (e : Err) (f : α → Except Err β) : (Except.error e >>= f) = .error e := rfl

theorem local_reference {α : Type} (x : Except Err α) : local' (reference (F := F) (G := G)) x = x := by
  cases x <;> rfl

theorem reference_join (k : Nat) (x : Except Err (List F)) (l : List (Nat × Except Err (List F))) :
    (reference (F := F) (G := G)).join ((k, x) :: l) =
      x >>= fun a => ((reference (F := F) (G := G)).join l >>= fun r => .ok (a :: r)) := by
  show List.mapM _ _ = _
  rw [List.mapM_cons]
  rfl

theorem reference_join_nil : (reference (F := F) (G := G)).join [] = .ok [] := rfl

omit [DecidableEq F] in
theorem msm_powers {τ : F} {g₁ : G} {pTau : List G} (h : ∀ i P, pTau[i]? = some P → P = τ ^ i • g₁) (k : Nat) (l : List F)
    (hl : k + l.length ≤ pTau.length) :
    Rep3.Point.msm ((pTau.drop k).take l.length) l = (τ ^ k * (ofList l).eval τ) • g₁ := by
  induction l generalizing k with
  | nil => simp [Rep3.Point.msm, ofList]
  | cons a l ih =>
    have hk : k < pTau.length := by simp at hl; omega
    have ih := ih (k + 1) (by simp at hl; omega)
    rw [← List.cons_getElem_drop_succ (h := hk), List.length_cons, List.take_succ_cons]
    simp only [Rep3.Point.msm, List.zipWith_cons_cons, List.sum_cons] at ih ⊢
    rw [ih, h k _ (List.getElem?_eq_getElem hk)]
    simp only [ofList, eval_add, eval_C, eval_mul, eval_X, smul_smul, ← add_smul]
    congr 1
    ring

theorem commit_eq [AddCommGroup H] [Module F H] {key : Zkey F G H} {τ : F} {g₁ : G} {g₂ : H} (hs : key.SetupValid τ g₁ g₂)
    {l : List F} (hl : l.length ≤ key.domainSize + 6) :
    commit (reference (F := F) (G := G)) key.pTau l = .ok ((ofList l).eval τ • g₁) := by
  have h1 := hs.length
  have := msm_powers hs.powers 0 l (by omega)
  rw [List.drop_zero, pow_zero, one_mul] at this
  simp only [commit, local', atLeast_ok (show l.length ≤ key.pTau.length by omega)]
  show Except.ok _ = _
  rw [← this]
  rfl

/-- The values of one wire. -/
def bufOf (key : Zkey F G H) (z : List F) (col : Column) : List F :=
  (List.range key.domainSize).map fun i => z.getD (key.signal col i) 0

omit [AddCommGroup G] [Module F G] in
theorem wirePoly_eq {key : Zkey F G H} {inputs wit : List F} (hw : key.WellFormed) (hf : key.Fits inputs wit) {adds : List F}
    (ha : adds.length = key.nAdditions) (dom : Domains F) (blind : List F) (col : Column) :
    wirePoly (fun x => x) key dom (0 :: inputs) wit adds blind (match col with | .a => key.mapA | .b => key.mapB | .c => key.mapC)
      = .ok (interpolate dom (bufOf key (0 :: inputs ++ wit ++ adds) col) blind) := by
  have hv := hw.vars
  obtain ⟨buf, h1, h2, h3⟩ := buffer_eq hf ha (by omega) (map := match col with | .a => key.mapA | .b => key.mapB | .c => key.mapC)
    (by cases col <;> [exact hw.mapA; exact hw.mapB; exact hw.mapC])
    (by cases col <;> [exact hw.lengthA; exact hw.lengthB; exact hw.lengthC])
  have e : resize key.domainSize buf = bufOf key (0 :: inputs ++ wit ++ adds) col := by
    conv_lhs => rw [← map_range_getD _ h2]
    refine List.map_congr_left fun i hi => ?_
    rw [h3 i (List.mem_range.1 hi)]
    cases col <;> rfl
  rw [wirePoly, h1]
  show Except.ok _ = _
  rw [e]

/-- The wires of round 1. -/
def wiresOf (key : Zkey F G H) (dom : Domains F) (z b : List F) : Wires F :=
  ⟨interpolate dom (bufOf key z .a) (b.take 2), interpolate dom (bufOf key z .b) ((b.drop 2).take 2),
    interpolate dom (bufOf key z .c) ((b.drop 4).take 2)⟩

omit [DecidableEq F] [AddCommGroup G] [Module F G] in
theorem bufOf_length (key : Zkey F G H) (z : List F) (col : Column) : (bufOf key z col).length = key.domainSize := by
  simp [bufOf]

section Rounds

variable {key : Zkey F G H} {dom : Domains F} (hd : dom.Ok) (hsz : dom.size = key.domainSize) (hw : key.WellFormed)

include hsz hw in
omit [DecidableEq F] [AddCommGroup G] [Module F G] in
theorem size_ge : 8 ≤ dom.size := by
  rw [hsz, hw.size]
  calc 8 = 2 ^ 3 := rfl
    _ ≤ 2 ^ key.pow := Nat.pow_le_pow_right (by omega) hw.large

include hd hsz hw

omit [AddCommGroup G] [Module F G] in
theorem wirePolys_eq {inputs wit : List F} (hf : key.Fits inputs wit) {adds : List F} (ha : adds.length = key.nAdditions)
    {b : List F} (hb : b.length = 11) :
    wirePolys (fun x => x) key dom (0 :: inputs) wit adds b = .ok (wiresOf key dom (0 :: inputs ++ wit ++ adds) b) := by
  have h8 := size_ge hsz hw
  have ea := wirePoly_eq hw hf ha dom (b.take 2) .a
  have eb := wirePoly_eq hw hf ha dom ((b.drop 2).take 2) .b
  have ec := wirePoly_eq hw hf ha dom ((b.drop 4).take 2) .c
  simp only [] at ea eb ec
  have hlen : ∀ (col : Column) (l : List F), l.length = 2 →
      maxLen (key.domainSize + 2) (interpolate dom (bufOf key (0 :: inputs ++ wit ++ adds) col) l).poly = .ok () := by
    intro col l hl
    rw [maxLen, if_neg]
    rw [(interpolate_eq hd (by rw [bufOf_length, hsz]) (by omega)).2.1, hl, hsz]
    omega
  rw [wirePolys, ea, eb, ec]
  show (do maxLen _ _; maxLen _ _; maxLen _ _; pure _ : Except Err (Wires F)) = _
  rw [hlen .a _ (by simp [hb]), hlen .b _ (by simp [hb]), hlen .c _ (by simp [hb])]
  rfl

theorem round1_eq [AddCommGroup H] [Module F H] {inputs wit : List F} (hf : key.Fits inputs wit) {adds : List F}
    (ha : adds.length = key.nAdditions) {b : List F} (hb : b.length = 11) {τ : F} {g₁ : G} {g₂ : H}
    (hs : key.SetupValid τ g₁ g₂) (ws : Wires F) (hws : ws = wiresOf key dom (0 :: inputs ++ wit ++ adds) b) :
    round1 (reference (F := F) (G := G)) key dom (0 :: inputs) wit adds b =
      .ok (ws, [(ofList ws.a.poly).eval τ • g₁, (ofList ws.b.poly).eval τ • g₁, (ofList ws.c.poly).eval τ • g₁]) := by
  subst hws
  have h8 := size_ge hsz hw
  have hlen : ∀ (col : Column) (l : List F), l.length = 2 →
      (interpolate dom (bufOf key (0 :: inputs ++ wit ++ adds) col) l).poly.length ≤ key.domainSize + 6 := by
    intro col l hl
    rw [(interpolate_eq hd (by rw [bufOf_length, hsz]) (by omega)).2.1, hl, hsz]
    omega
  have e := wirePolys_eq hd hsz hw hf ha hb
  have ca := commit_eq hs (hlen .a (b.take 2) (by simp [hb]))
  have cb := commit_eq hs (hlen .b ((b.drop 2).take 2) (by simp [hb]))
  have cc := commit_eq hs (hlen .c ((b.drop 4).take 2) (by simp [hb]))
  rw [round1, local_reference]
  show (do
      let ws ← wirePolys (fun x => x) key dom (0 :: inputs) wit adds b
      _ : Except Err _) = _
  rw [e, ok_bind]
  simp only [wiresOf] at ca cb cc ⊢
  rw [ca, ok_bind, cb, ok_bind, cc, ok_bind]
  rfl

/-! ### Round 2 -/

omit [DecidableEq F] [AddCommGroup G] [Module F G] hw in
theorem numerators_eq (z : List F) (col : Column) (β γ k : F) :
    numerators (fun x y => x + y) dom β γ k (bufOf key z col) =
      (List.range key.domainSize).map fun i => z.getD (key.signal col i) 0 + k * (β * dom.root ^ i) + γ := by
  rw [numerators, hsz]
  refine List.map_congr_left fun i hi => ?_
  rw [bufOf, getD_map_range _ (List.mem_range.1 hi)]

omit [DecidableEq F] [AddCommGroup G] [Module F G] hw in
theorem denominators_eq (z : List F) (col : Column) (β γ : F) {s : Poly F} (hs : s.Valid key.domainSize dom.root4) :
    denominators (fun x y => x + y) dom β γ s (bufOf key z col) =
      (List.range key.domainSize).map fun i => z.getD (key.signal col i) 0 + β * polyValue s.coeffs (dom.root ^ i) + γ := by
  rw [denominators, hsz]
  refine List.map_congr_left fun i hi => ?_
  have hi := List.mem_range.1 hi
  rw [bufOf, getD_map_range _ hi, hs.evals, getD_map_range _ (by omega), mul_comm i 4, pow_mul, hd.root]

/-- A factor of the numerator, and of the denominator, of the permutation product. -/
def numAt (key : Zkey F G H) (dom : Domains F) (β γ : F) (z : List F) (i : Nat) : F :=
  (z.getD (key.signal .a i) 0 + β * dom.root ^ i + γ) * (z.getD (key.signal .b i) 0 + β * (key.vk.k1 * dom.root ^ i) + γ)
    * (z.getD (key.signal .c i) 0 + β * (key.vk.k2 * dom.root ^ i) + γ)

@[inherit_doc numAt]
def denAt (key : Zkey F G H) (dom : Domains F) (β γ : F) (z : List F) (i : Nat) : F :=
  (z.getD (key.signal .a i) 0 + β * polyValue key.s1.coeffs (dom.root ^ i) + γ)
    * (z.getD (key.signal .b i) 0 + β * polyValue key.s2.coeffs (dom.root ^ i) + γ)
    * (z.getD (key.signal .c i) 0 + β * polyValue key.s3.coeffs (dom.root ^ i) + γ)

/-- The values of the permutation polynomial on the domain. -/
def bufZ (key : Zkey F G H) (dom : Domains F) (β γ : F) (z : List F) : List F :=
  (List.range key.domainSize).map fun i =>
    (∏ j ∈ range i, numAt key dom β γ z j) / ∏ j ∈ range i, denAt key dom β γ z j

omit hw [AddCommGroup G] [Module F G] hd hsz in
theorem prefix_zero (f : Nat → F) (n : Nat) : 0 ∈ prefixProducts 1 ((List.range n).map f) ↔ ∃ i < n, f i = 0 := by
  rw [prefixProducts_range]
  simp only [List.mem_map, List.mem_range, one_mul, prod_eq_zero_iff, mem_range]
  constructor
  · rintro ⟨i, hi, j, hj, e⟩; exact ⟨j, by omega, e⟩
  · rintro ⟨i, hi, e⟩; exact ⟨i, hi, i, by omega, e⟩

theorem computeZ_eq (hp : key.PolysValid dom.root dom.root4) (β γ : F) (z : List F) {b : List F} (hb : b.length = 11)
    (ws : Wires F) (hws : ws = wiresOf key dom z b) :
    computeZ (reference (F := F) (G := G)) key dom β γ ws b =
      if ∃ i < key.domainSize, denAt key dom β γ z i = 0 then .error (.err "Cannot invert zero")
      else .ok (interpolate dom (bufZ key dom β γ z) ((b.drop 6).take 3)) := by
  subst hws
  have h8 := size_ge hsz hw
  have hs1 := hp.sigma .a
  have hs2 := hp.sigma .b
  have hs3 := hp.sigma .c
  simp only [Zkey.sigma] at hs1 hs2 hs3
  have l1 : atLeast (key.domainSize * 4 - 3) key.s1.evals = .ok () := atLeast_ok (by rw [hs1.evals]; simp)
  have l2 : atLeast (key.domainSize * 4 - 3) key.s2.evals = .ok () := atLeast_ok (by rw [hs2.evals]; simp)
  have l3 : atLeast (key.domainSize * 4 - 3) key.s3.evals = .ok () := atLeast_ok (by rw [hs3.evals]; simp)
  have en : List.zipWith (· * ·) (List.zipWith (· * ·) (numerators (fun x y => x + y) dom β γ 1 (bufOf key z .a))
      (numerators (fun x y => x + y) dom β γ key.vk.k1 (bufOf key z .b)))
      (numerators (fun x y => x + y) dom β γ key.vk.k2 (bufOf key z .c)) =
      (List.range key.domainSize).map (numAt key dom β γ z) := by
    rw [numerators_eq hd hsz, numerators_eq hd hsz, numerators_eq hd hsz, zipWith_map_range, zipWith_map_range]
    refine List.map_congr_left fun i _ => ?_
    simp only [numAt]; ring
  have ed : List.zipWith (· * ·) (List.zipWith (· * ·) (denominators (fun x y => x + y) dom β γ key.s1 (bufOf key z .a))
      (denominators (fun x y => x + y) dom β γ key.s2 (bufOf key z .b)))
      (denominators (fun x y => x + y) dom β γ key.s3 (bufOf key z .c)) =
      (List.range key.domainSize).map (denAt key dom β γ z) := by
    rw [denominators_eq hd hsz _ _ _ _ hs1, denominators_eq hd hsz _ _ _ _ hs2, denominators_eq hd hsz _ _ _ _ hs3,
      zipWith_map_range, zipWith_map_range]
    rfl
  simp only [computeZ, local_reference, l1, l2, l3, ok_bind, reference_join, reference_join_nil]
  have ha : (reference (F := F) (G := G)).arrayProdMul false
      (numerators (fun x y => x + y) dom β γ 1 (bufOf key z .a))
      (numerators (fun x y => x + y) dom β γ key.vk.k1 (bufOf key z .b))
      (numerators (fun x y => x + y) dom β γ key.vk.k2 (bufOf key z .c)) =
      .ok (prefixProducts 1 ((List.range key.domainSize).map (numAt key dom β γ z))) := by
    rw [← en]; rfl
  have hb2 : (reference (F := F) (G := G)).arrayProdMul true
      (denominators (fun x y => x + y) dom β γ key.s1 (bufOf key z .a))
      (denominators (fun x y => x + y) dom β γ key.s2 (bufOf key z .b))
      (denominators (fun x y => x + y) dom β γ key.s3 (bufOf key z .c)) =
      if ∃ i < key.domainSize, denAt key dom β γ z i = 0 then .error (.err "Cannot invert zero")
      else .ok ((prefixProducts 1 ((List.range key.domainSize).map (denAt key dom β γ z))).map (·⁻¹)) := by
    show arrayProd true _ _ _ = _
    simp only [arrayProd, ed, if_true, prefix_zero]
  have b1 : (wiresOf key dom z b).a.buffer = bufOf key z .a := rfl
  have b2 : (wiresOf key dom z b).b.buffer = bufOf key z .b := rfl
  have b3 : (wiresOf key dom z b).c.buffer = bufOf key z .c := rfl
  have b4 : (reference (F := F) (G := G)).addPub = fun x y => x + y := rfl
  simp only [b1, b2, b3, b4, ha, hb2, ok_bind]
  by_cases h0 : ∃ i < key.domainSize, denAt key dom β γ z i = 0
  · rw [if_pos h0, if_pos h0]; rfl
  · rw [if_neg h0, if_neg h0]
    have hden : ∀ i < key.domainSize, denAt key dom β γ z i ≠ 0 := fun i hi e => h0 ⟨i, hi, e⟩
    have htot := perm_prod hp (fun s => z.getD s 0) β γ
    simp only [Zkey.label] at htot
    have ez := bufferZ_eq (by omega) (numAt key dom β γ z) (denAt key dom β γ z) hden htot
    have hlen : maxLen (key.domainSize + 3) (interpolate dom (bufZ key dom β γ z) ((b.drop 6).take 3)).poly = .ok () := by
      rw [maxLen, if_neg]
      rw [(interpolate_eq hd (by simp [bufZ, hsz]) (by simp; omega)).2.1, hsz]
      simp [hb]
    have b5 : ∀ x y : List F, (reference (F := F) (G := G)).first ((reference (F := F) (G := G)).mulVec x y) =
        .ok (List.zipWith (· * ·) x y) := fun _ _ => rfl
    simp only [ok_bind, b5, List.getD_cons_zero, List.getD_cons_succ]
    rw [ez]
    rw [bufZ] at hlen ⊢
    rw [hlen]
    rfl

end Rounds

end Verif.Plonk
