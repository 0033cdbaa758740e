import Verif.Shamir.Shamir
import Verif.Spec.Shamir
import Verif.Rep3.Cols
import Mathlib.LinearAlgebra.Lagrange
import Mathlib.Algebra.BigOperators.Fin
import Mathlib.Tactic.Ring
import Mathlib.Tactic.LinearCombination

/-!
# Lemmas about polynomials, Lagrange coefficients, sharing and combining
-/

namespace Verif.Shamir

open Polynomial

variable {F V R : Type} [Field F] [AddCommGroup V] [Module F V]

/-! ## Evaluation -/

/-- Value of a coefficient list. -/
def horner (poly : List V) (x : F) : V := poly.foldr (fun c e => x • e + c) 0

@[simp] theorem horner_nil (x : F) : horner ([] : List V) x = 0 := rfl
@[simp] theorem horner_cons (c : V) (cs : List V) (x : F) :
    horner (c :: cs) x = x • horner cs x + c := rfl

theorem evaluatePoly_eq (poly : List V) (x : F) : evaluatePoly poly x = horner poly x := by
  have : horner poly x = poly.reverse.foldl (fun e c => x • e + c) 0 := by
    rw [List.foldl_reverse]; rfl
  rw [this, evaluatePoly]
  cases poly.reverse with
  | nil => rfl
  | cons c cs => simp

theorem horner_eq_sum (poly : List V) (x : F) :
    horner poly x = ∑ k ∈ Finset.range poly.length, x ^ k • poly.getD k 0 := by
  induction poly with
  | nil => simp
  | cons c cs ih =>
    rw [List.length_cons, Finset.sum_range_succ', horner_cons, ih, Finset.smul_sum]
    simp [pow_succ', mul_smul]

theorem horner_eq_polyAt {poly : List V} {d : Nat} (h : poly.length = d + 1) (x : F) :
    horner poly x = polyAt d (fun k => poly.getD k 0) x := by
  rw [horner_eq_sum, h, polyAt]

theorem polyAt_zero (d : Nat) (c : Nat → V) : polyAt d c (0 : F) = c 0 := by
  rw [polyAt, Finset.sum_range_succ']
  simp

theorem horner_zero (poly : List V) : horner poly (0 : F) = poly.getD 0 0 := by
  cases poly <;> simp

theorem horner_map_smul (p : List F) (v : V) (x : F) :
    horner (p.map (· • v)) x = horner p x • v := by
  induction p with
  | nil => simp
  | cons a as ih => simp [ih, add_smul, mul_smul]

theorem horner_map_mul (p : List F) (c : F) (x : F) :
    horner (p.map (· * c)) x = horner p x * c := horner_map_smul p c x

theorem horner_timesRootGo (root : F) (prev : F) (as : List F) (x : F) :
    horner (timesRootGo root prev as) x = prev + (x - root) * horner as x := by
  induction as generalizing prev with
  | nil => simp [timesRootGo]
  | cons a as ih => simp only [timesRootGo, horner_cons, ih, smul_eq_mul]; ring

theorem horner_polyTimesRoot (p : List F) (root x : F) :
    horner (polyTimesRoot p root) x = (x - root) * horner p x := by
  rw [polyTimesRoot, horner_timesRootGo, zero_add]

theorem length_timesRootGo (root : F) (prev : F) (as : List F) :
    (timesRootGo root prev as).length = as.length + 1 := by
  induction as generalizing prev with
  | nil => rfl
  | cons a as ih => simp [timesRootGo, ih]

@[simp] theorem length_polyTimesRoot (p : List F) (root : F) :
    (polyTimesRoot p root).length = p.length + 1 := length_timesRootGo _ _ _

/-! ## Closure properties of sharings -/

variable {n : Nat}

theorem _root_.Verif.polyAt_add (d : Nat) (c c' : Nat → V) (x : F) :
    polyAt d c x + polyAt d c' x = polyAt d (fun k => c k + c' k) x := by
  simp [polyAt, Finset.sum_add_distrib]

theorem _root_.Verif.polyAt_smul {W : Type} [AddCommGroup W] [Module F W] (d : Nat) (c : Nat → V)
    (f : V →ₗ[F] W) (x : F) : f (polyAt d c x) = polyAt d (fun k => f (c k)) x := by
  simp [polyAt]

theorem _root_.Verif.IsShamir.add {d : Nat} {s s' : Fin n → V} {v v' : V} (h : IsShamir F d s v)
    (h' : IsShamir F d s' v') : IsShamir F d (fun i => s i + s' i) (v + v') := by
  obtain ⟨c, rfl, hc⟩ := h
  obtain ⟨c', rfl, hc'⟩ := h'
  exact ⟨fun k => c k + c' k, rfl, fun i => by simp only [hc, hc', polyAt_add]⟩

theorem _root_.Verif.IsShamir.linear {W : Type} [AddCommGroup W] [Module F W] {d : Nat}
    {s : Fin n → V} {v : V} (h : IsShamir F d s v) (f : V →ₗ[F] W) :
    IsShamir F d (fun i => f (s i)) (f v) := by
  obtain ⟨c, rfl, hc⟩ := h
  exact ⟨fun k => f (c k), rfl, fun i => by simp only [hc, polyAt_smul]⟩

theorem _root_.Verif.IsShamir.smul {d : Nat} {s : Fin n → V} {v : V} (h : IsShamir F d s v)
    (a : F) : IsShamir F d (fun i => a • s i) (a • v) :=
  h.linear (LinearMap.lsmul F V a)

theorem _root_.Verif.IsShamir.neg {d : Nat} {s : Fin n → V} {v : V} (h : IsShamir F d s v) :
    IsShamir F d (fun i => -s i) (-v) := by
  simpa using h.smul (-1)

theorem _root_.Verif.IsShamir.sub {d : Nat} {s s' : Fin n → V} {v v' : V} (h : IsShamir F d s v)
    (h' : IsShamir F d s' v') : IsShamir F d (fun i => s i - s' i) (v - v') := by
  simpa [sub_eq_add_neg] using h.add h'.neg

/-- `x ↦ xᵏ • v` for `k ≤ d`. -/
theorem isShamir_mono {d k : Nat} (hk : k ≤ d) (v : V) :
    IsShamir F d (fun i : Fin n => ((i.val + 1 : Nat) : F) ^ k • v) (if k = 0 then v else 0) := by
  refine ⟨fun j => if j = k then v else 0, by simp [eq_comm], fun i => ?_⟩
  rw [polyAt, Finset.sum_eq_single k]
  · simp
  · intro b _ hb; simp [hb]
  · intro hk'; exact absurd (Finset.mem_range.mpr (by omega)) hk'

theorem _root_.Verif.IsShamir.const (d : Nat) (v : V) : IsShamir F d (fun _ : Fin n => v) v := by
  simpa using isShamir_mono (F := F) (n := n) (k := 0) (Nat.zero_le d) v

theorem _root_.Verif.IsShamir.sum {κ : Type} (t : Finset κ) {d : Nat} {s : κ → Fin n → V} {v : κ → V}
    (h : ∀ k ∈ t, IsShamir F d (s k) (v k)) :
    IsShamir F d (fun i => ∑ k ∈ t, s k i) (∑ k ∈ t, v k) := by
  classical
  induction t using Finset.induction_on with
  | empty => simpa using IsShamir.const (F := F) (n := n) d (0 : V)
  | insert a t ha ih =>
    simp only [Finset.sum_insert ha]
    exact (h a (by simp)).add (ih fun k hk => h k (by simp [hk]))

/-- Product of a shared scalar and a shared vector: degrees add up. -/
theorem _root_.Verif.IsShamir.smul_smul {d e : Nat} {a : Fin n → F} {x : F} {s : Fin n → V} {v : V}
    (h : IsShamir F d a x) (h' : IsShamir F e s v) :
    IsShamir F (d + e) (fun i => a i • s i) (x • v) := by
  obtain ⟨c, rfl, hc⟩ := h
  obtain ⟨c', rfl, hc'⟩ := h'
  have key := IsShamir.sum (F := F) (n := n) (d := d + e)
    (Finset.range (d + 1) ×ˢ Finset.range (e + 1))
    (s := fun p i => ((i.val + 1 : Nat) : F) ^ (p.1 + p.2) • (c p.1 • c' p.2))
    (v := fun p => if p.1 + p.2 = 0 then c p.1 • c' p.2 else 0)
    (fun p hp => isShamir_mono (by
      simp only [Finset.mem_product, Finset.mem_range] at hp; omega) _)
  have hv : (∑ p ∈ Finset.range (d + 1) ×ˢ Finset.range (e + 1),
      if p.1 + p.2 = 0 then c p.1 • c' p.2 else 0) = c 0 • c' 0 := by
    rw [Finset.sum_eq_single (0, 0)]
    · simp
    · rintro ⟨a, b⟩ _ hb
      rw [if_neg]
      simp only [ne_eq, Prod.mk.injEq] at hb
      simp only; omega
    · intro h; simp at h
  rw [hv] at key
  convert key using 1
  funext i
  rw [hc, hc', polyAt, polyAt, Finset.sum_smul_sum, Finset.sum_product]
  refine Finset.sum_congr rfl fun j _ => Finset.sum_congr rfl fun k _ => ?_
  simp only [_root_.smul_smul, smul_eq_mul]
  congr 1
  ring

theorem _root_.Verif.IsShamir.mul {d e : Nat} {a b : Fin n → F} {x y : F}
    (h : IsShamir F d a x) (h' : IsShamir F e b y) :
    IsShamir F (d + e) (fun i => a i * b i) (x * y) := h.smul_smul h'

theorem _root_.Verif.IsShamir.mono {d e : Nat} (hde : d ≤ e) {s : Fin n → V} {v : V}
    (h : IsShamir F d s v) : IsShamir F e s v := by
  obtain ⟨k, rfl⟩ := Nat.exists_eq_add_of_le hde
  have := (IsShamir.const (F := F) (n := n) k (1 : F)).smul_smul h
  simpa [Nat.add_comm] using this

theorem isShamir_of_horner {poly : List V} {d : Nat} (h : poly.length = d + 1) :
    IsShamir F d (fun i : Fin n => horner poly ((i.val + 1 : Nat) : F)) (horner poly (0 : F)) :=
  ⟨fun k => poly.getD k 0, by rw [horner_zero], fun i => horner_eq_polyAt h _⟩

/-! ## Lagrange coefficients -/

theorem inverse?_of_ne [DecidableEq F] {x : F} (h : x ≠ 0) : inverse? x = some x⁻¹ := by
  simp [inverse?, h]

/-- Distinct indices with distinct images in the field. -/
structure Points (F : Type) [Field F] (coeffs : List Nat) : Prop where
  nodup : coeffs.Nodup
  inj : Set.InjOn (fun i : Nat => (i : F)) {i | i ∈ coeffs}

/-- The Lagrange coefficient of index `i`. -/
noncomputable def lag (F : Type) [Field F] (coeffs : List Nat) (i : Nat) : F :=
  (Lagrange.basis coeffs.toFinset (fun i : Nat => (i : F)) i).eval 0

theorem foldl_numDen (F : Type) [Field F] (coeffs : List Nat) (i : Nat) (a b : F) :
    coeffs.foldl (fun (x : F × F) j =>
      if i ≠ j then (x.1 * (j : F), x.2 * ((j : F) - (i : F))) else (x.1, x.2)) (a, b) =
      (a * ((coeffs.filter (fun j => i ≠ j)).map (fun j : Nat => (j : F))).prod,
       b * ((coeffs.filter (fun j => i ≠ j)).map (fun j : Nat => (j : F) - (i : F))).prod) := by
  induction coeffs generalizing a b with
  | nil => simp
  | cons c cs ih =>
    rw [List.foldl_cons]
    by_cases h : i = c
    · subst h
      simpa using ih a b
    · rw [if_pos h, ih]
      simp [h, mul_assoc]

theorem lagrangeNumDen_eq {coeffs : List Nat} (hn : coeffs.Nodup) (i : Nat) :
    lagrangeNumDen F coeffs i =
      (∏ j ∈ coeffs.toFinset.erase i, (j : F), ∏ j ∈ coeffs.toFinset.erase i, ((j : F) - (i : F))) := by
  have hs : coeffs.toFinset.erase i = (coeffs.filter (fun j => i ≠ j)).toFinset := by
    ext j
    simp only [Finset.mem_erase, List.mem_toFinset, List.mem_filter, decide_eq_true_eq]
    exact ⟨fun h => ⟨h.2, Ne.symm h.1⟩, fun h => ⟨Ne.symm h.2, h.1⟩⟩
  have := foldl_numDen F coeffs i 1 1
  rw [lagrangeNumDen, this, hs, List.prod_toFinset _ (hn.filter _), List.prod_toFinset _ (hn.filter _)]
  simp

theorem lagrangeFromCoeff_eq [DecidableEq F] {coeffs : List Nat} (h : Points F coeffs) :
    lagrangeFromCoeff F coeffs = some (coeffs.map (lag F coeffs)) := by
  rw [lagrangeFromCoeff]
  have key : ∀ i ∈ coeffs, (do
      let (num, den) := lagrangeNumDen F coeffs i
      pure (num * (← inverse? den)) : Option F) = some (lag F coeffs i) := by
    intro i hi
    rw [lagrangeNumDen_eq h.nodup]
    have hne : (∏ j ∈ coeffs.toFinset.erase i, ((j : F) - (i : F))) ≠ 0 := by
      rw [Finset.prod_ne_zero_iff]
      intro j hj
      simp only [Finset.mem_erase, List.mem_toFinset] at hj
      exact sub_ne_zero.mpr fun he => hj.1 (h.inj hj.2 hi he)
    simp only [inverse?_of_ne hne, Option.pure_def, Option.bind_eq_bind, Option.bind_some,
      Option.some.injEq]
    rw [lag, Lagrange.basis, eval_prod, ← Finset.prod_inv_distrib, ← Finset.prod_mul_distrib]
    refine Finset.prod_congr rfl fun j hj => ?_
    simp only [Finset.mem_erase, List.mem_toFinset] at hj
    have h1 : (j : F) - (i : F) ≠ 0 := sub_ne_zero.mpr fun he => hj.1 (h.inj hj.2 hi he)
    have h2 : (i : F) - (j : F) ≠ 0 := sub_ne_zero.mpr fun he => hj.1 (h.inj hj.2 hi he.symm)
    simp only [Lagrange.basisDivisor, eval_mul, eval_C, eval_sub, eval_X, zero_sub]
    field_simp
    ring
  generalize hl : coeffs = l at key
  have : ∀ l' : List Nat, (∀ i ∈ l', (do
      let (num, den) := lagrangeNumDen F l i
      pure (num * (← inverse? den)) : Option F) = some (lag F l i)) →
      l'.mapM (fun i => (do
      let (num, den) := lagrangeNumDen F l i
      pure (num * (← inverse? den)) : Option F)) = some (l'.map (lag F l)) := by
    intro l' hl'
    induction l' with
    | nil => rfl
    | cons a as ih =>
      rw [List.mapM_cons, hl' a (by simp), ih fun i hi => hl' i (by simp [hi])]
      rfl
  exact this l key

/-- Lagrange coefficients pick the constant term of a polynomial of small degree. -/
theorem sum_lag_pow {coeffs : List Nat} (h : Points F coeffs) {k : Nat} (hk : k < coeffs.length) :
    ∑ i ∈ coeffs.toFinset, lag F coeffs i * (i : F) ^ k = 0 ^ k := by
  have hinj : Set.InjOn (fun i : Nat => (i : F)) (coeffs.toFinset : Set Nat) := by
    simpa using h.inj
  have hcard : coeffs.toFinset.card = coeffs.length := List.toFinset_card_of_nodup h.nodup
  have hd : (X ^ k : F[X]).degree < coeffs.toFinset.card := by
    rw [degree_X_pow, hcard]; exact_mod_cast hk
  have := congrArg (eval 0) (Lagrange.eq_interpolate hinj hd)
  rw [Lagrange.interpolate_apply, eval_finsetSum] at this
  simp only [eval_pow, eval_X, eval_mul, eval_C] at this
  rw [this]
  refine Finset.sum_congr rfl fun i _ => ?_
  rw [lag, mul_comm]

theorem reconstruct_eq_sum (shares : List V) (lagrange : List F) :
    reconstruct shares lagrange = (List.zipWith (fun s l => l • s) shares lagrange).sum := by
  have : ∀ (l : List (V × F)) (a : V),
      l.foldl (fun res (x : V × F) => res + x.2 • x.1) a = a + (l.map (fun x => x.2 • x.1)).sum := by
    intro l
    induction l with
    | nil => simp
    | cons x xs ih => intro a; rw [List.foldl_cons, ih]; simp [add_assoc]
  have h2 := this (List.zip shares lagrange) 0
  rw [reconstruct, zero_add] at *
  rw [h2, List.zip, List.map_zipWith]

theorem reconstruct_map (l : List Nat) (f : Nat → V) (g : Nat → F) :
    reconstruct (l.map f) (l.map g) = (l.map fun i => g i • f i).sum := by
  rw [reconstruct_eq_sum]
  congr 1
  induction l with
  | nil => rfl
  | cons a as ih => simp [ih]

/-- Reconstruction from the values of a polynomial at distinct points. -/
theorem reconstruct_poly {coeffs : List Nat} (h : Points F coeffs) {d : Nat} (hd : d < coeffs.length)
    (c : Nat → V) :
    reconstruct (coeffs.map fun i : Nat => polyAt d c (i : F)) (coeffs.map (lag F coeffs)) = c 0 := by
  rw [reconstruct_map, ← List.sum_toFinset _ h.nodup]
  simp only [polyAt, Finset.smul_sum, smul_smul]
  rw [Finset.sum_comm]
  have : ∀ k ∈ Finset.range (d + 1),
      ∑ i ∈ coeffs.toFinset, (lag F coeffs i * (i : F) ^ k) • c k = if k = 0 then c 0 else 0 := by
    intro k hk
    rw [← Finset.sum_smul, sum_lag_pow h (by have := Finset.mem_range.mp hk; omega)]
    by_cases h0 : k = 0
    · subst h0; simp
    · simp [h0]
  rw [Finset.sum_congr rfl this]
  simp

theorem points_of_distinct {N : Nat} (hF : PointsDistinct F N) {l : List Nat} (hn : l.Nodup)
    (hl : ∀ i ∈ l, i ≤ N) : Points F l :=
  ⟨hn, fun i hi j hj h => hF i j (hl i hi) (hl j hj) h⟩

/-! ## Interpolation polynomials -/

theorem foldl_interp [DecidableEq F] (coeffs : List Nat) (i : Nat) (p : List F) (b : F) :
    ∃ q : List F, coeffs.foldl (fun (x : List F × F) j =>
      if i ≠ j then (polyTimesRoot x.1 (j : F), x.2 * ((i : F) - (j : F))) else (x.1, x.2)) (p, b) =
      (q, b * ((coeffs.filter (fun j => i ≠ j)).map (fun j : Nat => (i : F) - (j : F))).prod) ∧
      q.length = p.length + (coeffs.filter (fun j => i ≠ j)).length ∧
      ∀ x : F, horner q x = horner p x *
        ((coeffs.filter (fun j => i ≠ j)).map (fun j : Nat => x - (j : F))).prod := by
  induction coeffs generalizing p b with
  | nil => exact ⟨p, by simp⟩
  | cons c cs ih =>
    rw [List.foldl_cons]
    by_cases h : i = c
    · obtain ⟨q, h1, h2, h3⟩ := ih p b
      refine ⟨q, ?_, ?_, ?_⟩
      · simpa [h] using h1
      · simpa [h] using h2
      · simpa [h] using h3
    · rw [if_pos h]
      obtain ⟨q, h1, h2, h3⟩ := ih (polyTimesRoot p (c : F)) (b * ((i : F) - (c : F)))
      refine ⟨q, ?_, ?_, ?_⟩
      · rw [h1]; simp [h, mul_assoc]
      · rw [h2]; simp [h]; omega
      · intro x
        rw [h3, horner_polyTimesRoot]
        simp [h]; ring

theorem interpolationPoly_spec [DecidableEq F] {coeffs : List Nat} (h : Points F coeffs) {i : Nat}
    (hi : i ∈ coeffs) :
    ∃ p, interpolationPoly F coeffs i = some p ∧ p.length = coeffs.length ∧
      ∀ j ∈ coeffs, horner p (j : F) = if j = i then 1 else 0 := by
  obtain ⟨q, h1, h2, h3⟩ := foldl_interp (F := F) coeffs i [1] 1
  have hne : ((coeffs.filter (fun j => i ≠ j)).map (fun j : Nat => (i : F) - (j : F))).prod ≠ 0 := by
    rw [Ne, List.prod_eq_zero_iff]
    simp only [List.mem_map, List.mem_filter, decide_eq_true_eq, not_exists, not_and]
    rintro j ⟨hj, hij⟩ he
    exact hij (h.inj hi hj (sub_eq_zero.mp he))
  refine ⟨q.map (· * (((coeffs.filter (fun j => i ≠ j)).map
    (fun j : Nat => (i : F) - (j : F))).prod)⁻¹), ?_, ?_, ?_⟩
  · rw [one_mul] at h1
    rw [interpolationPoly, h1]
    simp only [inverse?_of_ne hne, Option.pure_def, Option.bind_eq_bind, Option.bind_some]
  · rw [List.length_map, h2]
    have : (coeffs.filter (fun j => i ≠ j)).length + 1 = coeffs.length := by
      have h4 : coeffs.filter (fun j => i ≠ j) = coeffs.erase i := by
        rw [h.nodup.erase_eq_filter]
        refine List.filter_congr fun j _ => ?_
        by_cases h : i = j
        · simp [h]
        · simp [h, Ne.symm h]
      rw [h4, List.length_erase_of_mem hi]
      have := List.length_pos_of_mem hi
      omega
    rw [List.length_singleton]; omega
  · intro j hj
    rw [horner_map_mul, h3]
    split
    · next he => subst he; rw [mul_assoc, mul_inv_cancel₀ hne]; simp
    · next he =>
      have : ((coeffs.filter (fun j => i ≠ j)).map (fun k : Nat => (j : F) - (k : F))).prod = 0 := by
        rw [List.prod_eq_zero_iff]
        refine List.mem_map.mpr ⟨j, List.mem_filter.mpr ⟨hj, by simp [Ne.symm he]⟩, by simp⟩
      rw [this]; simp

theorem mapM_some_of {α β : Type} {f : α → Option β} {P : α → β → Prop} {l : List α}
    (h : ∀ a ∈ l, ∃ b, f a = some b ∧ P a b) :
    ∃ bs, l.mapM f = some bs ∧ List.Forall₂ P l bs := by
  induction l with
  | nil => exact ⟨[], rfl, .nil⟩
  | cons a as ih =>
    obtain ⟨b, hb, hP⟩ := h a (by simp)
    obtain ⟨bs, hbs, hPs⟩ := ih fun x hx => h x (by simp [hx])
    exact ⟨b :: bs, by rw [List.mapM_cons, hb, hbs]; rfl, .cons hP hPs⟩

/-- A usable table of interpolation polynomials for the points `coeffs`. -/
def IsInterp (F : Type) [Field F] (coeffs : List Nat) (table : List (List F)) : Prop :=
  List.Forall₂ (fun i p => p.length = coeffs.length ∧
    ∀ j ∈ coeffs, horner p (j : F) = if j = i then 1 else 0) coeffs table

theorem precompute_spec [DecidableEq F] {coeffs : List Nat} (h : Points F coeffs) :
    ∃ t, precomputeInterpolationPolys F coeffs = some t ∧ IsInterp F coeffs t :=
  mapM_some_of fun i hi => by
    obtain ⟨p, h1, h2⟩ := interpolationPoly_spec h hi
    exact ⟨p, h1, h2⟩

theorem horner_zipWith_add {p q : List F} (h : p.length = q.length) (c x : F) :
    horner (List.zipWith (fun r n => r + n * c) p q) x = horner p x + horner q x * c := by
  induction p generalizing q with
  | nil => cases q <;> simp_all
  | cons a as ih =>
    cases q with
    | nil => simp at h
    | cons b bs => simp only [List.zipWith_cons_cons, horner_cons, smul_eq_mul,
        ih (by simpa using h)]; ring

theorem horner_replicate_zero (m : Nat) (x : F) : horner (List.replicate m (0 : F)) x = 0 := by
  induction m with
  | zero => rfl
  | succ m ih => simp [List.replicate_succ, ih]

theorem foldl_interpolate {m : Nat} (ts : List (List F × F)) (acc : List F)
    (ha : acc.length = m) (ht : ∀ x ∈ ts, x.1.length = m) :
    (ts.foldl (fun res (x : List F × F) => List.zipWith (fun r n => r + n * x.2) res x.1) acc).length
      = m ∧
    ∀ x : F, horner (ts.foldl (fun res (x : List F × F) =>
        List.zipWith (fun r n => r + n * x.2) res x.1) acc) x =
      horner acc x + (ts.map fun t => horner t.1 x * t.2).sum := by
  induction ts generalizing acc with
  | nil => simp [ha]
  | cons t ts ih =>
    have hl : (List.zipWith (fun r n => r + n * t.2) acc t.1).length = m := by
      simp [ha, ht t (by simp)]
    obtain ⟨h1, h2⟩ := ih _ hl fun x hx => ht x (by simp [hx])
    refine ⟨h1, fun x => ?_⟩
    rw [List.foldl_cons, h2, horner_zipWith_add (by rw [ha, ht t (by simp)])]
    simp [add_assoc]

/-- The interpolated polynomial has the right length and goes through the given values. -/
theorem interpolate_spec {coeffs : List Nat} (hn : coeffs.Nodup) {table : List (List F)}
    (ht : IsInterp F coeffs table) {shares : List F} (hl : shares.length = coeffs.length) :
    (interpolateFromPrecomputed shares table).length = coeffs.length ∧
    ∀ k (hk : k < coeffs.length),
      horner (interpolateFromPrecomputed shares table) ((coeffs[k] : Nat) : F) = shares[k]'(hl ▸ hk) := by
  have hlen : ∀ x ∈ List.zip table shares, x.1.length = shares.length := by
    intro x hx
    rw [hl]
    have h1 := (List.of_mem_zip hx).1
    obtain ⟨k, hk, he⟩ := List.mem_iff_getElem.mp h1
    have h2 := (List.forall₂_iff_get.mp ht).2 k (by rw [(List.forall₂_iff_get.mp ht).1]; exact hk) hk
    rw [← he]
    exact h2.1
  obtain ⟨h1, h2⟩ := foldl_interpolate (List.zip table shares) (List.replicate shares.length 0)
    (by simp) hlen
  refine ⟨by rw [← hl]; exact h1, fun k hk => ?_⟩
  have h3 := h2 ((coeffs[k] : Nat) : F)
  rw [horner_replicate_zero, zero_add] at h3
  rw [interpolateFromPrecomputed, h3]
  -- only the `k`-th summand is not zero
  clear h1 h2 h3 hlen
  have htl : coeffs.length = table.length := ht.length_eq
  have hget : ∀ m (hm : m < coeffs.length), horner (table[m]'(htl ▸ hm)) ((coeffs[k] : Nat) : F) =
      if k = m then 1 else 0 := by
    intro m hm
    have := ((List.forall₂_iff_get.mp ht).2 m hm (htl ▸ hm)).2 coeffs[k] (List.getElem_mem hk)
    simp only [List.get_eq_getElem] at this
    rw [this]
    congr 1
    rw [hn.getElem_inj_iff]
  have hz : (List.zip table shares).map (fun t => horner t.1 ((coeffs[k] : Nat) : F) * t.2) =
      List.ofFn (fun m : Fin coeffs.length =>
        if k = m.val then shares[m.val]'(by rw [hl]; exact m.2) else 0) := by
    apply List.ext_getElem
    · simp [← htl, hl]
    · intro m hm1 hm2
      have hm : m < coeffs.length := by simpa using hm2
      simp only [List.getElem_map, List.getElem_zip, List.getElem_ofFn, hget m hm]
      split <;> simp
  rw [hz, List.sum_ofFn, Finset.sum_eq_single ⟨k, hk⟩]
  · simp
  · intro b _ hb
    rw [if_neg]
    intro he
    exact hb (Fin.ext he.symm)
  · simp

/-! ## The polynomial with given zeros -/

theorem foldl_zeros (l : List Nat) (p : List F) (b : F) :
    ∃ q : List F, l.foldl (fun (x : List F × F) (j : Nat) =>
      (polyTimesRoot x.1 (j : F), x.2 * (-(j : F))))
      (p, b) = (q, b * (l.map (fun j : Nat => -(j : F))).prod) ∧
      q.length = p.length + l.length ∧
      ∀ x : F, horner q x = horner p x * (l.map (fun j : Nat => x - (j : F))).prod := by
  induction l generalizing p b with
  | nil => exact ⟨p, by simp⟩
  | cons c cs ih =>
    obtain ⟨q, h1, h2, h3⟩ := ih (polyTimesRoot p (c : F)) (b * (-(c : F)))
    refine ⟨q, ?_, ?_, ?_⟩
    · rw [List.foldl_cons, h1]; simp [mul_assoc]
    · rw [h2]; simp; omega
    · intro x
      rw [h3, horner_polyTimesRoot]
      simp only [List.map_cons, List.prod_cons]; ring

theorem zeroPoly_spec [DecidableEq F] {l : List Nat} (h : ∀ j ∈ l, (j : F) ≠ 0) :
    ∃ p, interpolationPolyFromZeroPoints F l = some p ∧ p.length = l.length + 1 ∧
      horner p (0 : F) = 1 ∧ ∀ j ∈ l, horner p (j : F) = 0 := by
  obtain ⟨q, h1, h2, h3⟩ := foldl_zeros (F := F) l [1] 1
  have hne : (l.map (fun j : Nat => -(j : F))).prod ≠ 0 := by
    rw [Ne, List.prod_eq_zero_iff]
    simp only [List.mem_map, not_exists, not_and]
    intro j hj he
    exact h j hj (neg_eq_zero.mp he)
  refine ⟨q.map (· * ((l.map (fun j : Nat => -(j : F))).prod)⁻¹), ?_, ?_, ?_, ?_⟩
  · rw [one_mul] at h1
    rw [interpolationPolyFromZeroPoints, h1]
    simp only [inverse?_of_ne hne, Option.pure_def, Option.bind_eq_bind, Option.bind_some]
  · rw [List.length_map, h2]; simp; omega
  · rw [horner_map_mul, h3]
    simp only [zero_sub]
    rw [mul_assoc, mul_inv_cancel₀ hne]; simp
  · intro j hj
    rw [horner_map_mul, h3]
    have : (l.map (fun k : Nat => (j : F) - (k : F))).prod = 0 := by
      rw [List.prod_eq_zero_iff]
      exact List.mem_map.mpr ⟨j, hj, by simp⟩
    rw [this]; simp

end Verif.Shamir
