import Verif.Honk.Shplemini
import Verif.Honk.ProverLemmas
import Verif.Plonk.RoundLemmas

/-!
# Lemmas: the polynomials of the opening proof
-/

namespace Verif.Honk

open Plonk (ofList evalPublic evalPublic_eq zipInto_length mapHead_length)

variable {F : Type} [Field F]

/-! ## Values -/

theorem ev_cons (a : F) (l : List F) (y : F) : evalPublic (a :: l) y = evalPublic l y * y + a := rfl

theorem ev_nil (y : F) : evalPublic ([] : List F) y = 0 := rfl

theorem ev_replicate (n : Nat) (y : F) : evalPublic (List.replicate n (0 : F)) y = 0 := by
  rw [evalPublic_eq, Plonk.ofList_replicate, Polynomial.eval_zero]

theorem ev_zipInto {f : F → F → F} {c : F} (h : ∀ x y, f x y = x + c * y) {p q : List F} (hl : q.length ≤ p.length) (y : F) :
    evalPublic (Plonk.zipInto f p q) y = evalPublic p y + c * evalPublic q y := by
  simp only [evalPublic_eq]
  rw [Plonk.ofList_zipInto (fun x _ y => h x y) hl]
  simp

theorem ev_addScaled {k : F} {p q : List F} (hl : q.length ≤ p.length) (y : F) :
    evalPublic (addScaled k p q) y = evalPublic p y + k * evalPublic q y :=
  ev_zipInto (fun _ _ => rfl) hl y

theorem ev_add {p q : List F} (hl : q.length ≤ p.length) (y : F) :
    evalPublic (Plonk.zipInto (· + ·) p q) y = evalPublic p y + evalPublic q y := by
  rw [ev_zipInto (c := 1) (fun _ _ => by ring) hl, one_mul]

theorem ev_sub {p q : List F} (hl : q.length ≤ p.length) (y : F) :
    evalPublic (Plonk.zipInto (· - ·) p q) y = evalPublic p y - evalPublic q y := by
  rw [ev_zipInto (c := -1) (fun _ _ => by ring) hl]; ring

theorem ev_smul (c : F) (l : List F) (y : F) : evalPublic (l.map fun x => c • x) y = c * evalPublic l y := by
  simp only [evalPublic_eq, smul_eq_mul, Plonk.ofList_map_mul]
  simp

theorem ev_subHead {p : List F} (hp : p ≠ []) (v y : F) : evalPublic (subHead p v) y = evalPublic p y - v := by
  simp only [evalPublic_eq]
  rw [subHead, Plonk.ofList_mapHead (c := -v) (fun x => sub_eq_add_neg x v) hp]
  simp [sub_eq_add_neg]

theorem subHead_length (p : List F) (v : F) : (subHead p v).length = p.length := mapHead_length _ _

theorem addScaled_length (k : F) (p q : List F) : (addScaled k p q).length = p.length := zipInto_length _ _ _

theorem zipInto_getD {f : F → F → F} (h : ∀ x, f x 0 = x) (p q : List F) (hl : q.length ≤ p.length) (i : Nat) :
    (Plonk.zipInto f p q).getD i 0 = if i < p.length then f (p.getD i 0) (q.getD i 0) else 0 := by
  induction p generalizing q i with
  | nil =>
    cases q with
    | nil => simp [Plonk.zipInto]
    | cons y q => simp at hl
  | cons x p ih =>
    cases q with
    | nil =>
      simp only [Plonk.zipInto, List.getD_nil, h]
      split
      · rfl
      · rw [List.getD, List.getElem?_eq_none (by omega)]; rfl
    | cons y q =>
      cases i with
      | zero => simp [Plonk.zipInto]
      | succ i =>
        simp only [Plonk.zipInto, List.getD_cons_succ, List.length_cons, Nat.add_lt_add_iff_right]
        exact ih q (by simpa using hl) i

theorem addScaled_getD (k : F) {p q : List F} (hl : q.length ≤ p.length) {i : Nat} (hi : i < p.length) :
    (addScaled k p q).getD i 0 = p.getD i 0 + k * q.getD i 0 := by
  refine (zipInto_getD (fun x => by simp) p q hl i).trans ?_
  rw [if_pos hi, smul_eq_mul]

/-! ## Division by a linear factor -/

section

variable [DecidableEq F]

omit [DecidableEq F] in
theorem divideLoop_length (k t : F) (l : List F) : (divideLoop k t l).length = l.length := by
  induction l generalizing t with
  | nil => rfl
  | cons c l ih => simp [divideLoop, ih]

omit [DecidableEq F] in
theorem divideLoop_eval {x : F} (hx : x ≠ 0) (y : F) (l : List F) (t : F) :
    evalPublic l y = (y - x) * evalPublic (divideLoop (-x)⁻¹ t l) y + t - ((divideLoop (-x)⁻¹ t l).getLastD t) * y ^ l.length := by
  induction l generalizing t with
  | nil => simp [divideLoop, evalPublic]
  | cons c l ih =>
    rw [divideLoop, ev_cons, ev_cons, ih ((-x)⁻¹ • (c - t)), List.getLastD_cons, List.length_cons]
    have : x * ((-x)⁻¹ • (c - t)) = -(c - t) := by
      rw [smul_eq_mul]; field_simp
    linear_combination this

omit [DecidableEq F] in
theorem ev_dropLast (l : List F) (h : l.getLastD 0 = 0) (y : F) : evalPublic l.dropLast y = evalPublic l y := by
  induction l with
  | nil => rfl
  | cons a l ih =>
    cases l with
    | nil =>
      simp only [List.getLastD_cons, List.getLastD_nil] at h
      simp [h, evalPublic]
    | cons b l =>
      rw [List.dropLast_cons_cons, ev_cons, ev_cons, ih]
      simpa [List.getLastD_cons] using h

theorem factorRoots_eval {x : F} {p : List F} (h : evalPublic p x = 0) (y : F) :
    (y - x) * evalPublic (factorRoots x p) y = evalPublic p y := by
  rw [factorRoots]
  split
  next hx =>
    subst hx
    cases p with
    | nil => simp [evalPublic]
    | cons c p =>
      rw [ev_cons, mul_zero, zero_add] at h
      subst h
      rw [List.tail_cons, ev_cons]
      ring
  next hx =>
    have h1 := divideLoop_eval hx x p 0
    rw [h] at h1
    have hl : (divideLoop (-x)⁻¹ 0 p).getLastD 0 = 0 := by
      have : (divideLoop (-x)⁻¹ 0 p).getLastD 0 * x ^ p.length = 0 := by linear_combination h1
      exact (mul_eq_zero.mp this).resolve_right (pow_ne_zero _ hx)
    rw [ev_dropLast _ hl, divideLoop_eval hx y p 0, hl]
    ring

theorem factorRoots_length (x : F) (p : List F) : (factorRoots x p).length ≤ p.length := by
  rw [factorRoots]
  split
  · simp
  · simp [divideLoop_length]

end

/-! ## Weighted sums -/

/-- `k·v₀ + k·ρ·v₁ + k·ρ²·v₂ + …` -/
def wsum (ρ : F) : F → List F → F
  | _, [] => 0
  | k, v :: vs => k * v + wsum ρ (k * ρ) vs

theorem wsum_append (ρ k : F) (l l' : List F) : wsum ρ k (l ++ l') = wsum ρ k l + wsum ρ (k * ρ ^ l.length) l' := by
  induction l generalizing k with
  | nil => simp [wsum]
  | cons v l ih =>
    rw [List.cons_append, wsum, wsum, ih, List.length_cons, pow_succ']
    ring_nf

theorem wsum_pairs (ν : F) (A B : Nat → F) (s n : Nat) :
    wsum ν (ν ^ (2 * s)) ((List.range' s n).flatMap fun j => [A j, B j]) =
      ((List.range' s n).map fun j => ν ^ (2 * j) * A j + ν ^ (2 * j + 1) * B j).sum := by
  induction n generalizing s with
  | zero => rfl
  | succ n ih =>
    rw [List.range'_succ, List.flatMap_cons, List.map_cons, List.sum_cons, ← ih (s + 1)]
    simp only [List.cons_append, List.nil_append, wsum]
    rw [show ν ^ (2 * s) * ν * ν = ν ^ (2 * (s + 1)) by ring]
    ring

theorem wsum_zero (ρ k : F) (l : List F) (h : ∀ v ∈ l, v = 0) : wsum ρ k l = 0 := by
  induction l generalizing k with
  | nil => rfl
  | cons v l ih =>
    rw [wsum, h v (by simp), ih _ fun w hw => h w (by simp [hw])]
    ring

theorem wsum_congr {α : Type} (ρ k : F) (l : List α) (f g : α → F) (h : ∀ x ∈ l, f x = g x) :
    wsum ρ k (l.map f) = wsum ρ k (l.map g) := by
  rw [List.map_congr_left h]

theorem batchPolys_length (ρ : F) (ps : List (List F)) (s : List F × F) : (batchPolys ρ s ps).1.length = s.1.length := by
  induction ps generalizing s with
  | nil => rfl
  | cons p ps ih => exact (ih _).trans (addScaled_length _ _ _)

theorem batchPolys_power (ρ : F) (ps : List (List F)) (s : List F × F) : (batchPolys ρ s ps).2 = s.2 * ρ ^ ps.length := by
  induction ps generalizing s with
  | nil => simp [batchPolys]
  | cons p ps ih =>
    refine (ih _).trans ?_
    rw [List.length_cons, pow_succ']
    ring

theorem batchPolys_eval (ρ : F) (ps : List (List F)) (s : List F × F) (h : ∀ p ∈ ps, p.length ≤ s.1.length) (y : F) :
    evalPublic (batchPolys ρ s ps).1 y = evalPublic s.1 y + wsum ρ s.2 (ps.map (evalPublic · y)) := by
  induction ps generalizing s with
  | nil => simp [batchPolys, wsum]
  | cons p ps ih =>
    refine (ih _ fun q hq => by rw [addScaled_length]; exact h q (by simp [hq])).trans ?_
    rw [ev_addScaled (h p (by simp)), List.map_cons, wsum]
    ring

theorem batchPolys_getD (ρ : F) (ps : List (List F)) (s : List F × F) (h : ∀ p ∈ ps, p.length ≤ s.1.length) (i : Nat) (hi : i < s.1.length) :
    (batchPolys ρ s ps).1.getD i 0 = s.1.getD i 0 + wsum ρ s.2 (ps.map (·.getD i 0)) := by
  induction ps generalizing s with
  | nil => simp [batchPolys, wsum]
  | cons p ps ih =>
    refine (ih _ (fun q hq => by rw [addScaled_length]; exact h q (by simp [hq])) (by rwa [addScaled_length])).trans ?_
    rw [addScaled_getD s.2 (h p (by simp)) hi, List.map_cons, wsum]
    ring

/-! ## Multilinear extensions -/

theorem extension_congr {f g : Nat → F} {us : List F} (h : ∀ i < 2 ^ us.length, f i = g i) : extension f us = extension g us :=
  Finset.sum_congr rfl fun i hi => by rw [h i (Finset.mem_range.mp hi)]

theorem extension_add (f g : Nat → F) (us : List F) : extension (fun i => f i + g i) us = extension f us + extension g us := by
  simp only [extension, add_mul, Finset.sum_add_distrib]

theorem extension_mul (k : F) (f : Nat → F) (us : List F) : extension (fun i => k * f i) us = k * extension f us := by
  simp only [extension, Finset.mul_sum, mul_assoc]

theorem extension_zero (us : List F) : extension (fun _ => (0 : F)) us = 0 := by simp [extension]

theorem extension_wsum (ρ k : F) (fs : List (Nat → F)) (us : List F) :
    extension (fun i => wsum ρ k (fs.map (· i))) us = wsum ρ k (fs.map (extension · us)) := by
  induction fs generalizing k with
  | nil => simp [wsum, extension_zero]
  | cons f fs ih => simp only [List.map_cons, wsum, extension_add, extension_mul, ih]

end Verif.Honk
