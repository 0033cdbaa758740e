import Verif.Plonk.Model
import Verif.Groth16.DriverLemmas
import Verif.Spec.Poly
import Mathlib.Tactic.LinearCombination

/-!
# Lemmas: the vectors of the PLONK prover as polynomials
-/

namespace Verif.Plonk

open Polynomial
open Groth16 (fft ifft resize interp interp_degree interp_eval ifft_eval fft_coeff getD_map_range)

section General

variable {F : Type} [Field F]

/-- The polynomial with the given coefficients. -/
noncomputable def ofList : List F → F[X]
  | [] => 0
  | a :: l => C a + X * ofList l

theorem ofList_append (l r : List F) : ofList (l ++ r) = ofList l + X ^ l.length * ofList r := by
  induction l with
  | nil => simp [ofList]
  | cons a l ih => simp only [List.cons_append, ofList, ih, List.length_cons]; ring

theorem ofList_replicate (n : Nat) : ofList (List.replicate n (0 : F)) = 0 := by
  induction n with
  | zero => rfl
  | succ n ih => simp [List.replicate_succ, ofList, ih]

theorem ofList_map_mul (c : F) (l : List F) : ofList (l.map fun x => c * x) = C c * ofList l := by
  induction l with
  | nil => simp [ofList]
  | cons a l ih => simp only [List.map_cons, ofList, ih, C_mul]; ring

theorem zipInto_length {α β : Type} (f : α → β → α) (xs : List α) (ys : List β) : (zipInto f xs ys).length = xs.length := by
  induction xs generalizing ys with
  | nil => cases ys <;> rfl
  | cons x xs ih => cases ys <;> simp [zipInto, ih]

theorem ofList_zipInto {f : F → F → F} {c : F} {xs ys : List F} (h : ∀ x ∈ xs, ∀ y, f x y = x + c * y)
    (hl : ys.length ≤ xs.length) : ofList (zipInto f xs ys) = ofList xs + C c * ofList ys := by
  induction xs generalizing ys with
  | nil =>
    cases ys with
    | nil => simp [zipInto, ofList]
    | cons y ys => simp at hl
  | cons x xs ih =>
    cases ys with
    | nil => simp [zipInto, ofList]
    | cons y ys =>
      simp only [zipInto, ofList]
      rw [ih (fun x hx => h x (by simp [hx])) (by simpa using hl), h x (by simp), C_add, C_mul]
      ring

theorem mapHead_length {α : Type} (f : α → α) (l : List α) : (mapHead f l).length = l.length := by cases l <;> rfl

theorem ofList_mapHead {f : F → F} {c : F} {l : List F} (h : ∀ x, f x = x + c) (hl : l ≠ []) :
    ofList (mapHead f l) = ofList l + C c := by
  cases l with
  | nil => exact absurd rfl hl
  | cons x l => simp only [mapHead, ofList, h, C_add]; ring

theorem ofList_coeff (l : List F) (i : Nat) : (ofList l).coeff i = l.getD i 0 := by
  induction l generalizing i with
  | nil => simp [ofList]
  | cons a l ih =>
    cases i with
    | zero => simp [ofList]
    | succ i => simp [ofList, coeff_C, ih]

theorem ofList_degree (l : List F) : (ofList l).degree < l.length := by
  by_cases h : l = []
  · subst h; simp [ofList]
  · refine (degree_lt_iff_coeff_zero _ _).2 fun m hm => ?_
    rw [ofList_coeff, List.getD_eq_getElem?_getD, List.getElem?_eq_none (by exact_mod_cast hm)]
    rfl

theorem ofList_range {p : F[X]} {n : Nat} (hp : p.degree < n) : ofList ((List.range n).map p.coeff) = p := by
  ext i
  rw [ofList_coeff]
  by_cases hi : i < n
  · rw [getD_map_range _ hi]
  · rw [List.getD_eq_getElem?_getD, List.getElem?_eq_none (by simpa using hi)]
    exact ((degree_lt_iff_coeff_zero _ _).1 hp i (by exact_mod_cast (not_lt.1 hi))).symm

theorem evalPublic_eq (l : List F) (x : F) : evalPublic l x = (ofList l).eval x := by
  induction l with
  | nil => simp [evalPublic, ofList]
  | cons a l ih =>
    have e : evalPublic (a :: l) x = evalPublic l x * x + a := rfl
    rw [e, ih]
    simp only [ofList, eval_add, eval_C, eval_mul, eval_X]
    ring

theorem polyValue_eq (l : List F) (x : F) : polyValue l x = (ofList l).eval x := by
  have key : ∀ (l : List F) (k : Nat), ((l.mapIdx fun i c => c * x ^ (i + k))).sum = (ofList l).eval x * x ^ k := by
    intro l
    induction l with
    | nil => simp [ofList]
    | cons a l ih =>
      intro k
      rw [List.mapIdx_cons, List.sum_cons]
      have e : (fun i => (fun i c => c * x ^ (i + k)) (i + 1)) = fun i (c : F) => c * x ^ (i + (k + 1)) := by
        funext i c; simp only; congr 2; omega
      rw [e, ih (k + 1)]
      simp only [ofList, eval_add, eval_C, eval_mul, eval_X]
      ring
  have := key l 0
  simpa [polyValue] using this

/-- A polynomial that vanishes on the domain is a multiple of `Xⁿ - 1`. -/
theorem dvd_of_vanish {w : F} {n : Nat} (hn : 0 < n) (hw : IsPrimitiveRoot w n) {p : F[X]}
    (h : ∀ i < n, p.eval (w ^ i) = 0) : ∃ q : F[X], p = q * (X ^ n - 1) := by
  have hm : (X ^ n - 1 : F[X]).Monic := monic_X_pow_sub_C 1 (by omega)
  have hd : (p %ₘ (X ^ n - 1)).degree < n := by
    have := degree_modByMonic_lt p hm
    rwa [show (X ^ n - 1 : F[X]) = X ^ n - C 1 by simp, degree_X_pow_sub_C hn] at this
  have h0 : p %ₘ (X ^ n - 1) = 0 := by
    have := Polynomial.eq_zero_of_degree_lt_of_eval_index_eq_zero (s := Finset.range n) (v := fun i => w ^ i)
      (f := p %ₘ (X ^ n - 1)) ?_ ?_ ?_
    · exact this
    · intro i hi j hj hij
      exact hw.pow_inj (by simpa using hi) (by simpa using hj) hij
    · simpa using hd
    · intro i hi
      have e := congrArg (eval (w ^ i)) (modByMonic_add_div p (X ^ n - 1 : F[X]))
      have e1 : (w ^ i) ^ n = 1 := by rw [← pow_mul, mul_comm, pow_mul, hw.pow_eq_one, one_pow]
      simp only [eval_add, eval_mul, eval_sub, eval_pow, eval_X, eval_one, e1, sub_self, zero_mul, add_zero] at e
      rw [e]
      exact h i (by simpa using hi)
  obtain ⟨q, hq⟩ := (modByMonic_eq_zero_iff_dvd hm).1 h0
  exact ⟨q, by rw [hq]; ring⟩

/-- The remainder of the division by `X - β`, and the quotient. -/
theorem zerofierLoop_eq (β : F) (hβ : β ≠ 0) (prev : F) (l : List F) :
    ∃ last : F, ofList (prev :: zerofierLoop β⁻¹ prev l) * (X - C β) + C (prev * β) =
      ofList l * X + X ^ (l.length + 1) * C last ∧ last = (prev :: zerofierLoop β⁻¹ prev l).getD l.length 0 := by
  induction l generalizing prev with
  | nil => exact ⟨prev, by simp only [zerofierLoop, ofList, C_mul, List.length_nil]; ring, by simp⟩
  | cons x l ih =>
    obtain ⟨last, h1, h2⟩ := ih (β⁻¹ * (prev - x))
    refine ⟨last, ?_, ?_⟩
    · simp only [zerofierLoop, smul_eq_mul]
      have e : β⁻¹ * (prev - x) * β = prev - x := by field_simp
      rw [e] at h1
      generalize zerofierLoop β⁻¹ (β⁻¹ * (prev - x)) l = R at h1 ⊢
      simp only [ofList, List.length_cons, C_mul, C_sub] at h1 ⊢
      linear_combination X * h1
    · rw [h2]; simp [zerofierLoop]

theorem ofList_take {l : List F} {k : Nat} (h : l.length = k + 1) :
    ofList l = ofList (l.take k) + X ^ k * C (l.getD k 0) := by
  have e : l = l.take k ++ [l.getD k 0] := by
    conv_lhs => rw [← List.take_append_drop k l]
    congr 1
    refine List.ext_getElem (by simp [h]) fun i h1 h2 => ?_
    have : i = 0 := by simp at h2; omega
    subst this
    simp [List.getD_eq_getElem?_getD, List.getElem?_eq_getElem (show k < l.length by omega)]
  conv_lhs => rw [e, ofList_append]
  simp [ofList, h]

theorem zerofierLoop_length {A : Type} [Sub A] [SMul F A] (i : F) (p : A) (l : List A) :
    (zerofierLoop i p l).length = l.length := by
  induction l generalizing p with
  | nil => rfl
  | cons x l ih => simp [zerofierLoop, ih]

theorem divByZerofier_eq [DecidableEq F] {l r : List F} {β : F} (h : divByZerofier l β = .ok r)
    (h0 : (ofList l).eval β = 0) : ofList r * (X - C β) = ofList l ∧ r.length + 1 = l.length := by
  unfold divByZerofier at h
  split_ifs at h with hβ
  cases l with
  | nil => simp at h
  | cons x xs =>
    simp only [Except.ok.injEq] at h
    subst h
    simp only [smul_eq_mul]
    obtain ⟨last, h1, h2⟩ := zerofierLoop_eq β hβ (-β⁻¹ * x) xs
    have e : -β⁻¹ * x * β = -x := by field_simp
    rw [e] at h1
    have hlen : ((-β⁻¹ * x) :: zerofierLoop β⁻¹ (-β⁻¹ * x) xs).length = xs.length + 1 := by simp [zerofierLoop_length]
    have h3 := ofList_take hlen
    rw [← h2] at h3
    have hlast : last = 0 := by
      have := congrArg (eval β) h1
      simp only [eval_add, eval_mul, eval_sub, eval_X, eval_C, sub_self, mul_zero, zero_add, eval_pow] at this
      simp only [ofList, eval_add, eval_mul, eval_X, eval_C] at h0
      have h4 : β ^ (xs.length + 1) * last = 0 := by linear_combination -this - h0
      exact (mul_eq_zero.1 h4).resolve_left (pow_ne_zero _ hβ)
    subst hlast
    rw [C_0, mul_zero, add_zero] at h3 h1
    refine ⟨?_, by simp [zerofierLoop_length]⟩
    rw [← h3]
    simp only [ofList, C_neg] at h1 ⊢
    linear_combination h1

theorem divLoop_eq {n N : Nat} (hn : 0 < n) {p q : F[X]} (h : p = q * (X ^ n - 1)) (k : Nat) :
    ∀ m, n ≤ m → m + k ≤ N → divLoop n ((List.range N).map p.coeff) k ((List.range m).map q.coeff)
      = (List.range (m + k)).map q.coeff := by
  induction k with
  | zero => intro m _ _; rfl
  | succ k ih =>
    intro m hm hN
    rw [divLoop]
    have e : (List.range m).map q.coeff ++ [((List.range m).map q.coeff).getD (((List.range m).map q.coeff).length - n) 0
        - ((List.range N).map p.coeff).getD ((List.range m).map q.coeff).length 0] = (List.range (m + 1)).map q.coeff := by
      rw [List.range_succ, List.map_append, List.length_map, List.length_range, getD_map_range _ (by omega),
        getD_map_range _ (by omega), h, mul_sub, coeff_sub, mul_one]
      obtain ⟨d, rfl⟩ := Nat.exists_eq_add_of_le' hm
      rw [coeff_mul_X_pow, Nat.add_sub_cancel]
      simp
    rw [e, ih (m + 1) (by omega) (by omega)]
    congr 2
    omega

theorem divZh_eq {n N : Nat} (hn : 0 < n) (hN : n ≤ N) {p q : F[X]} (h : p = q * (X ^ n - 1)) :
    divZh n ((List.range N).map p.coeff) = (List.range N).map q.coeff := by
  unfold divZh
  have e : (((List.range N).map p.coeff).take n).map (fun x => -x) = (List.range n).map q.coeff := by
    rw [← List.map_take, List.take_range, min_eq_left hN, List.map_map]
    refine List.map_congr_left fun i hi => ?_
    have hi := List.mem_range.1 hi
    simp only [Function.comp, h, mul_sub, coeff_sub, mul_one]
    rw [coeff_mul_X_pow', if_neg (by omega)]
    simp
  rw [e, divLoop_eq hn h _ n le_rfl (by simp; omega)]
  congr 2
  simp; omega

end General

section Domain

variable {F : Type} [Field F]

/-- The domains are what they should be. -/
structure Domains.Ok (dom : Domains F) : Prop where
  pos : 0 < dom.size
  root4 : IsPrimitiveRoot dom.root4 (dom.size * 4)
  root : dom.root = dom.root4 ^ 4
  i : dom.i = dom.root4 ^ dom.size
  ne : ((dom.size * 4 : Nat) : F) ≠ 0

variable {dom : Domains F} (hd : dom.Ok)

include hd

theorem Domains.Ok.prim : IsPrimitiveRoot dom.root dom.size := by
  rw [hd.root]
  exact hd.root4.pow (by have := hd.pos; omega) (by ring)

theorem Domains.Ok.ne' : (dom.size : F) ≠ 0 := by
  have := hd.ne
  rw [Nat.cast_mul] at this
  exact left_ne_zero_of_mul this

theorem Domains.Ok.zh (i : Nat) : (dom.root4 ^ i) ^ dom.size - 1 = (z1 dom).getD (i % 4) 0 := by
  have hi2 : dom.i ^ 2 = -1 := by
    have h4 : dom.i ^ 4 = 1 := by rw [hd.i, ← pow_mul]; exact hd.root4.pow_eq_one
    have h2 : dom.i ^ 2 ≠ 1 := by
      rw [hd.i, ← pow_mul]
      intro h
      have := hd.root4.pow_eq_one_iff_dvd (dom.size * 2) |>.1 h
      have hp := hd.pos
      have := Nat.le_of_dvd (by omega) this
      omega
    have : (dom.i ^ 2 - 1) * (dom.i ^ 2 + 1) = 0 := by linear_combination h4
    rcases mul_eq_zero.1 this with h | h
    · exact absurd (sub_eq_zero.1 h) h2
    · linear_combination h
  have e : (dom.root4 ^ i) ^ dom.size = dom.i ^ i := by rw [hd.i, ← pow_mul, ← pow_mul, mul_comm]
  rw [e]
  have e4 : dom.i ^ i = dom.i ^ (i % 4) := by
    conv_lhs => rw [← Nat.div_add_mod i 4, pow_add, pow_mul]
    have : dom.i ^ 4 = 1 := by linear_combination (dom.i ^ 2 - 1) * hi2
    rw [this, one_pow, one_mul]
  rw [e4]
  have : i % 4 < 4 := Nat.mod_lt _ (by omega)
  interval_cases i % 4 <;> simp [z1]
  · ring
  · rw [hi2]
  · linear_combination dom.i * hi2

theorem Domains.Ok.i_sq : dom.i ^ 2 = -1 := by
  have h1 := hd.zh 2
  have e : (dom.root4 ^ 2) ^ dom.size = dom.i ^ 2 := by rw [hd.i, ← pow_mul, ← pow_mul, mul_comm]
  rw [e] at h1
  simp [z1] at h1
  linear_combination h1

theorem Domains.Ok.z2 (i : Nat) : (Plonk.z2 dom).getD (i % 4) 0 = (z1 dom).getD (i % 4) 0 ^ 2 := by
  have h := hd.i_sq
  have : i % 4 < 4 := Nat.mod_lt _ (by omega)
  interval_cases i % 4 <;> simp [z1, Plonk.z2]
  · linear_combination -h
  · ring
  · linear_combination -h

theorem Domains.Ok.z3 (i : Nat) : (Plonk.z3 dom).getD (i % 4) 0 = (z1 dom).getD (i % 4) 0 ^ 3 := by
  have h := hd.i_sq
  have : i % 4 < 4 := Nat.mod_lt _ (by omega)
  interval_cases i % 4 <;> simp [z1, Plonk.z3]
  · linear_combination (3 - dom.i) * h
  · ring
  · linear_combination (3 + dom.i) * h

/-- The wire polynomial without blinding. -/
noncomputable def wireOf (dom : Domains F) (buffer : List F) : F[X] := interp dom.size dom.root fun j => buffer.getD j 0

theorem wireOf_degree (buffer : List F) : (wireOf dom buffer).degree < dom.size := interp_degree hd.prim _

omit hd in
theorem resize_of_length {A : Type} [Zero A] {n : Nat} {l : List A} (h : l.length = n) : resize n l = l := by
  simp [resize, h]

theorem ifftOn_wireOf {buffer : List F} (h : buffer.length = dom.size) :
    ifftOn dom.root dom.size buffer = (List.range dom.size).map (wireOf dom buffer).coeff := by
  rw [ifftOn, resize_of_length h, ← ifft_eval (wireOf_degree hd buffer) hd.prim hd.ne']
  congr 1
  conv_lhs => rw [← Groth16.map_range_getD buffer h]
  refine List.map_congr_left fun i hi => ?_
  rw [wireOf, interp_eval hd.prim _ (List.mem_range.1 hi)]

omit hd in
theorem resize_coeffs {p : F[X]} {n m : Nat} (hp : p.degree < n) (h : n ≤ m) :
    resize m ((List.range n).map p.coeff) = (List.range m).map p.coeff := by
  refine List.ext_getElem (by simp [resize]; omega) fun i h1 h2 => ?_
  simp only [resize, List.getElem_take, List.getElem_append, List.getElem_map, List.getElem_range, List.getElem_replicate,
    List.length_map, List.length_range]
  split_ifs with hi
  · rfl
  · exact ((degree_lt_iff_coeff_zero _ _).1 hp i (by exact_mod_cast (not_lt.1 hi))).symm

theorem fftOn_wireOf (buffer : List F) :
    fftOn dom.root4 (dom.size * 4) ((List.range dom.size).map (wireOf dom buffer).coeff) =
      (List.range (dom.size * 4)).map fun i => (wireOf dom buffer).eval (dom.root4 ^ i) := by
  have hdeg := wireOf_degree hd buffer
  rw [fftOn, resize_coeffs hdeg (by omega), fft_coeff]
  exact hdeg.trans_le (by exact_mod_cast (by omega))

theorem ifftOn_eval {p : F[X]} (hp : p.degree < (dom.size * 4 : Nat)) :
    ifftOn dom.root4 (dom.size * 4) ((List.range (dom.size * 4)).map fun i => p.eval (dom.root4 ^ i)) =
      (List.range (dom.size * 4)).map p.coeff := by
  rw [ifftOn, resize_of_length (by simp), ifft_eval hp hd.root4 hd.ne]

theorem interpolate_eq {buffer blind : List F} (h : buffer.length = dom.size) (hb : blind.length ≤ dom.size) :
    ofList (interpolate dom buffer blind).poly = wireOf dom buffer + (X ^ dom.size - 1) * ofList blind.reverse ∧
    (interpolate dom buffer blind).poly.length = dom.size + blind.length ∧
    (interpolate dom buffer blind).eval = (List.range (dom.size * 4)).map fun i => (wireOf dom buffer).eval (dom.root4 ^ i) := by
  simp only [interpolate, ifftOn_wireOf hd h, blindCoefficients]
  refine ⟨?_, by simp [zipInto_length], fftOn_wireOf hd buffer⟩
  rw [ofList_append, ofList_zipInto (c := -1) (fun x _ y => by ring) (by simpa using hb), ofList_range (wireOf_degree hd buffer),
    zipInto_length]
  simp only [List.length_map, List.length_range, C_neg, C_1]
  ring

end Domain

end Verif.Plonk
