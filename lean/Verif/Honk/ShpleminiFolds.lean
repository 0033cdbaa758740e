import Verif.Honk.ShpleminiPolys

/-!
# Lemmas: the folded polynomials of the opening proof
-/

namespace Verif.Honk

open Plonk (evalPublic)

variable {F : Type} [Field F]

/-- `b` is `a` folded with `u`: `2y·b(y²) = a(y)·(y(1-u) + u) + a(-y)·(y(1-u) - u)`. -/
def FoldStep (u : F) (a b : List F) : Prop :=
  ∀ y, 2 * y * evalPublic b (y * y) = evalPublic a y * (y * (1 - u) + u) + evalPublic a (-y) * (y * (1 - u) - u)

theorem coFold_cons (u a0 a1 : F) (a : List F) (m : Nat) :
    coFold u (a0 :: a1 :: a) (m + 1) = (a0 + u * (a1 - a0)) :: coFold u a m := by
  simp only [coFold, List.range_succ_eq_map, List.map_cons, List.map_map, mul_zero, List.getD_cons_zero, zero_add,
    List.getD_cons_succ, smul_eq_mul]
  congr 1

theorem foldStep_coFold (u : F) (m : Nat) (a : List F) (h : a.length = 2 * m) : FoldStep u a (coFold u a m) := by
  intro y
  induction m generalizing a with
  | zero =>
    obtain rfl := List.length_eq_zero_iff.mp (h.trans (mul_zero _))
    simp [coFold, evalPublic]
  | succ m ih =>
    match a, h with
    | a0 :: a1 :: a, h =>
      rw [coFold_cons, ev_cons, ev_cons, ev_cons, ev_cons, ev_cons]
      have := ih a (by simp at h; omega)
      linear_combination y * y * this

theorem foldStep_const (u t c : F) : FoldStep u [t * c] [(t * (1 - u)) * c] := by
  intro y
  simp only [evalPublic, List.foldr_cons, List.foldr_nil]
  ring

/-- The polynomials `as` are `a` folded one after the other. -/
def Chain : List F → List F → List (List F) → Prop
  | _, [], [] => True
  | a, u :: us, b :: bs => FoldStep u a b ∧ Chain b us bs
  | _, _, _ => False

/-- All folded polynomials, including the constant that belongs to the last variable. -/
def fullFolds : List F → Nat → List F → List (List F)
  | u :: us, k + 1, a => coFold u a (2 ^ (k + 1)) :: fullFolds us k (coFold u a (2 ^ (k + 1)))
  | u :: us, 0, a => [a.getD 0 0 + u * (a.getD 1 0 - a.getD 0 0)] :: tailPolys (a.getD 0 0 + u * (a.getD 1 0 - a.getD 0 0)) 1 us
  | [], _, _ => []

theorem tailPolys_length (c t : F) (us : List F) : (tailPolys c t us).length = us.length := by
  induction us generalizing t with
  | nil => rfl
  | cons u us ih => simp [tailPolys, ih]

theorem tailPolys_take (c t : F) (us : List F) (j : Nat) : tailPolys c t (us.take j) = (tailPolys c t us).take j := by
  induction us generalizing t j with
  | nil => simp [tailPolys]
  | cons u us ih => cases j <;> simp [tailPolys, ih]

theorem tailPolys_chain (c t : F) (us : List F) : Chain [t * c] us (tailPolys c t us) := by
  induction us generalizing t with
  | nil => trivial
  | cons u us ih => exact ⟨foldStep_const u t c, ih _⟩

theorem tailPolys_last (c t : F) (us : List F) :
    (tailPolys c t us).getLastD [t * c] = [extension (fun i => if i = 0 then t * c else 0) us] := by
  induction us generalizing t with
  | nil => simp [tailPolys, extension]
  | cons u us ih =>
    rw [tailPolys, List.getLastD_cons, smul_eq_mul, ih, extension_cons]
    congr 2
    funext i
    by_cases hi : i = 0
    · subst hi; simp; ring
    · simp [hi]

theorem fullFolds_length (us : List F) (k : Nat) (a : List F) : (fullFolds us k a).length = us.length := by
  induction us generalizing k a with
  | nil => simp [fullFolds]
  | cons u us ih => cases k <;> simp [fullFolds, ih, tailPolys_length]

theorem coFold_length (u : F) (a : List F) (n : Nat) : (coFold u a n).length = n := by simp [coFold]

theorem fullFolds_chain (us : List F) (k : Nat) (a : List F) (ha : a.length = 2 ^ (k + 1)) : Chain a us (fullFolds us k a) := by
  induction us generalizing k a with
  | nil => cases k <;> trivial
  | cons u us ih =>
    cases k with
    | zero =>
      refine ⟨?_, ?_⟩
      · have := foldStep_coFold u 1 a ha
        simpa [coFold] using this
      · have := tailPolys_chain (a.getD 0 0 + u * (a.getD 1 0 - a.getD 0 0)) 1 us
        rwa [one_mul] at this
    | succ k => exact ⟨foldStep_coFold u _ a (by rw [ha, pow_succ']), ih k _ (coFold_length _ _ _)⟩

theorem fullFolds_last (us : List F) (k : Nat) (a : List F) (ha : a.length = 2 ^ (k + 1)) (hk : k < us.length) :
    (fullFolds us k a).getLastD a = [extension (fun i => a.getD i 0) us] := by
  induction us generalizing k a with
  | nil => simp at hk
  | cons u us ih =>
    cases k with
    | zero =>
      rw [fullFolds, List.getLastD_cons]
      have := tailPolys_last (a.getD 0 0 + u * (a.getD 1 0 - a.getD 0 0)) 1 us
      rw [one_mul] at this
      rw [this, extension_cons]
      congr 2
      funext i
      by_cases hi : i = 0
      · subst hi; simp; ring
      · rw [if_neg hi]
        have h0 : ∀ j, 2 ≤ j → a.getD j 0 = 0 := fun j hj => by
          rw [List.getD, List.getElem?_eq_none (by rw [ha]; simpa using hj)]; rfl
        rw [h0 _ (by omega), h0 _ (by omega)]
        ring
    | succ k =>
      rw [fullFolds, List.getLastD_cons, ih k _ (coFold_length _ _ _) (by simpa using hk), extension_cons]
      congr 2
      funext i
      by_cases hi : i < 2 ^ (k + 1)
      · simp only [coFold, List.getD, List.getElem?_map, List.getElem?_range hi, Option.map_some, Option.getD_some, smul_eq_mul]
        ring
      · have h0 : ∀ j, 2 ^ (k + 2) ≤ j → a.getD j 0 = 0 := fun j hj => by
          rw [List.getD, List.getElem?_eq_none (by rw [ha]; exact hj)]; rfl
        have e : 2 ^ (k + 2) = 2 * 2 ^ (k + 1) := pow_succ' _ _
        rw [h0 _ (by omega), h0 _ (by omega), List.getD, List.getElem?_eq_none (by rw [coFold_length]; omega)]
        simp

theorem fullFolds_sizes (us : List F) (k : Nat) (a : List F) : ∀ p ∈ fullFolds us k a, p ≠ [] ∧ p.length ≤ 2 ^ (k + 1) := by
  have tails : ∀ (us : List F) (c t : F), ∀ p ∈ tailPolys c t us, p.length = 1 := fun us => by
    induction us with
    | nil => simp [tailPolys]
    | cons u us ih =>
      intro c t p hp
      rcases List.mem_cons.mp hp with rfl | hp
      · rfl
      · exact ih _ _ p hp
  induction us generalizing k a with
  | nil => simp [fullFolds]
  | cons u us ih =>
    cases k with
    | zero =>
      intro p hp
      rcases List.mem_cons.mp hp with rfl | hp
      · simp
      · have := tails _ _ _ p hp
        exact ⟨fun e => by simp [e] at this, by rw [this]; simp⟩
    | succ k =>
      intro p hp
      have e : 2 ^ (k + 2) = 2 * 2 ^ (k + 1) := pow_succ' _ _
      have hpos : 0 < 2 ^ (k + 1) := Nat.two_pow_pos _
      rcases List.mem_cons.mp hp with rfl | hp
      · refine ⟨fun e => ?_, by rw [coFold_length]; omega⟩
        have := coFold_length u a (2 ^ (k + 1))
        rw [e] at this
        simp at this
        omega
      · have := ih k _ p hp
        exact ⟨this.1, by omega⟩

theorem foldPolys_full (us : List F) (k : Nat) (a : List F) (hk : k < us.length) :
    ∃ u, us[k]? = some u ∧
      fullFolds us k a = foldPolys us k a
        ++ [[((foldPolys us k a).getLastD a).getD 0 0 + u * (((foldPolys us k a).getLastD a).getD 1 0 - ((foldPolys us k a).getLastD a).getD 0 0)]]
        ++ tailPolys (((foldPolys us k a).getLastD a).getD 0 0
          + u * (((foldPolys us k a).getLastD a).getD 1 0 - ((foldPolys us k a).getLastD a).getD 0 0)) 1 (us.drop (k + 1)) := by
  induction us generalizing k a with
  | nil => simp at hk
  | cons u us ih =>
    cases k with
    | zero => exact ⟨u, rfl, by simp [fullFolds, foldPolys]⟩
    | succ k =>
      obtain ⟨v, hv, e⟩ := ih k (coFold u a (2 ^ (k + 1))) (by simpa using hk)
      refine ⟨v, by simpa using hv, ?_⟩
      rw [fullFolds, foldPolys, List.getLastD_cons, e]
      simp

/-- The prover computes the folded polynomials. -/
theorem computeFoldPolynomials_ok {logN : Nat} {us : List F} {a : List F} (h2 : 2 ≤ logN) (hD : logN ≤ us.length) :
    ∃ ps, computeFoldPolynomials logN us a = .ok ps ∧ ps.take (us.length - 1) = (fullFolds us (logN - 1) a).take (us.length - 1) := by
  obtain ⟨k, rfl⟩ : ∃ k, logN = k + 2 := ⟨logN - 2, by omega⟩
  obtain ⟨u, hu, e⟩ := foldPolys_full us (k + 1) a (by omega)
  match us, hD with
  | v :: vs, hD =>
    have hne : foldPolys (v :: vs) (k + 1) a ≠ [] := by simp [foldPolys]
    obtain ⟨last, hlast⟩ : ∃ l, (foldPolys (v :: vs) (k + 1) a).getLast? = some l :=
      ⟨_, List.getLast?_eq_some_getLast hne⟩
    have hl : (foldPolys (v :: vs) (k + 1) a).getLastD a = last := by
      rw [List.getLastD_eq_getLast?, hlast]; rfl
    refine ⟨foldPolys (v :: vs) (k + 1) a ++ [[last.getD 0 0 + u * (last.getD 1 0 - last.getD 0 0)]]
      ++ tailPolys (last.getD 0 0 + u * (last.getD 1 0 - last.getD 0 0)) 1 (((v :: vs).take ((v :: vs).length - 1)).drop (k + 2)), ?_, ?_⟩
    · rw [computeFoldPolynomials, if_neg (by omega)]
      simp only [Nat.add_sub_cancel, show k + 2 - 1 = k + 1 from rfl, hlast, hu]
      rfl
    · simp only [show k + 2 - 1 = k + 1 from rfl]
      rw [e, hl, List.drop_take, tailPolys_take]
      set c := last.getD 0 0 + u * (last.getD 1 0 - last.getD 0 0)
      set fs := foldPolys (v :: vs) (k + 1) a ++ [[c]]
      have hf : fs.length = k + 2 := by
        have := congrArg List.length e
        rw [fullFolds_length, List.length_append, tailPolys_length, List.length_drop, hl] at this
        change _ = fs.length + _ at this
        omega
      show (fs ++ _).take _ = (fs ++ _).take _
      clear_value fs
      rw [List.take_append, List.take_append, List.take_take, hf, Nat.min_self]

/-! ## The values that the verifier computes -/

section

variable [DecidableEq F]

/-- The values of the polynomials at `x`, `x²`, `x⁴`, …. -/
def valuesAt : F → List (List F) → List F
  | _, [] => []
  | x, p :: ps => evalPublic p x :: valuesAt (x * x) ps

omit [DecidableEq F] in
theorem valuesAt_getD (x : F) (ps : List (List F)) (j : Nat) (hj : j < ps.length) :
    (valuesAt x ps).getD j 0 = evalPublic (ps.getD j []) (x ^ 2 ^ j) := by
  induction ps generalizing x j with
  | nil => simp at hj
  | cons p ps ih =>
    cases j with
    | zero => simp [valuesAt]
    | succ j =>
      simp only [valuesAt, List.getD_cons_succ]
      rw [ih _ _ (by simpa using hj), ← pow_two, ← pow_mul, ← pow_succ']

theorem foldPosValues_ok {v : F} : ∀ {us : List F} {a : List F} {ps : List (List F)} {x : F}, Chain a us ps → ps.getLastD a = [v] →
    (∀ j < us.length, x ^ 2 ^ j * (1 - us.getD j 0) + us.getD j 0 ≠ 0) → ∀ {negs : List F},
    (∀ j < us.length, negs.getD j 0 = evalPublic ((a :: ps).getD j []) (-x ^ 2 ^ j)) → negs.length = us.length →
    ∃ l, foldPosValues v (List.zipWith (fun x y => (x, y)) (List.iterate (fun x => x * x) x us.length) (List.zipWith (fun u n => (u, n)) us negs)) = .ok l ∧
      l.headD v = evalPublic a x ∧ l = valuesAt x ((a :: ps).take us.length) := by
  intro us
  induction us with
  | nil =>
    intro a ps x hc hl _ negs _ _
    match ps, hc with
    | [], _ =>
      rw [List.getLastD_nil] at hl
      subst hl
      exact ⟨[], rfl, by simp [evalPublic], rfl⟩
  | cons u us ih =>
    intro a ps x hc hl hd negs hn hlen
    match ps, hc, negs, hlen with
    | b :: ps, ⟨hs, hc⟩, n :: negs, hlen =>
      rw [List.getLastD_cons] at hl
      have sq : ∀ j, (x * x) ^ 2 ^ j = x ^ 2 ^ (j + 1) := fun j => by rw [← pow_two, ← pow_mul, ← pow_succ']
      obtain ⟨l, h1, h2, h3⟩ := ih (x := x * x) (negs := negs) hc hl
        (fun j hj => by
          have := hd (j + 1) (by simpa using hj)
          simpa [sq] using this)
        (fun j hj => by
          have := hn (j + 1) (by simpa using hj)
          simpa [sq] using this)
        (by simpa using hlen)
      have hd0 := hd 0 (by simp)
      have hn0 := hn 0 (by simp)
      simp only [pow_zero, pow_one, List.getD_cons_zero] at hd0 hn0
      have hs := hs x
      have key : (x * evalPublic b (x * x) * 2 - n * (x * (1 - u) - u)) * (x * (1 - u) + u)⁻¹ = evalPublic a x := by
        rw [hn0, ← div_eq_mul_inv, div_eq_iff hd0]
        linear_combination hs
      refine ⟨evalPublic a x :: l, ?_, rfl, ?_⟩
      · simp only [List.length_cons, List.iterate, List.zipWith_cons_cons, foldPosValues, h1]
        rw [Plonk.ok_bind]
        simp only [h2, if_neg hd0, key]
        rfl
      · rw [h3, List.length_cons, List.take_succ_cons, valuesAt]

end

end Verif.Honk
