import Verif.Shamir.OpenLemmas

/-!
# Lemmas: generation of double sharings
-/

namespace Verif.Shamir

variable {n : Nat} {F V R S M : Type} [Field F] [AddCommGroup V] [Module F V]

/-! ## Tables as functions of the row number -/

theorem zipWith_rangeMap {α β γ : Type} (f : α → β → γ) (d : β) {a : Nat} (X : Nat → α)
    {vs : List β} (h : vs.length = a) :
    List.zipWith f ((List.range a).map X) vs = (List.range a).map fun m => f (X m) (vs.getD m d) := by
  apply List.ext_getElem
  · simp [h]
  · intro m h1 h2
    have : m < vs.length := by simp at h2; omega
    simp [this]

theorem setCol_rangeMap {a : Nat} (sid : Fin n) (X : Nat → Fin n → F) (Y : Nat → F) :
    ShamirRng.setCol sid ((List.range a).map X) ((List.range a).map Y) =
      (List.range a).map fun m => Function.update (X m) sid (Y m) := by
  generalize List.range a = l
  induction l with
  | nil => rfl
  | cons x xs ih => simp [ShamirRng.setCol, ih]

/-- Value number `m` of a block of `a` draws. -/
def val [Sample R F] (a : Nat) (r : R) (m : Nat) : F := (sampleN (α := F) r a).1.getD m 0
/-- The generator after a block of `a` draws. -/
def adv (F : Type) [Sample R F] (a : Nat) (r : R) : R := (sampleN (α := F) r a).2

theorem fillFrom_eq [Sample R F] (g : ShamirRng n R F) (a : Nat) (X : Nat → Fin n → F)
    (sid : Fin n) :
    ShamirRng.fillFrom (g, (List.range a).map X) sid =
      ({ g with rngs := Function.update g.rngs sid (adv F a (g.rngs sid)) },
        (List.range a).map fun m => Function.update (X m) sid (val a (g.rngs sid) m)) := by
  simp only [ShamirRng.fillFrom, ShamirRng.draw, List.length_map, List.length_range]
  rw [zipWith_rangeMap _ (0 : F) _ (by simp)]
  rfl

theorem foldl_fillFrom [Sample R F] (sids : List (Fin n)) (hn : sids.Nodup) (g : ShamirRng n R F)
    (a : Nat) (X : Nat → Fin n → F) :
    sids.foldl ShamirRng.fillFrom (g, (List.range a).map X) =
      ({ g with rngs := fun j => if j ∈ sids then adv F a (g.rngs j) else g.rngs j },
        (List.range a).map fun m j => if j ∈ sids then val a (g.rngs j) m else X m j) := by
  induction sids generalizing g X with
  | nil => simp
  | cons s ss ih =>
    have h := List.nodup_cons.mp hn
    rw [List.foldl_cons, fillFrom_eq, ih h.2]
    simp only [Prod.mk.injEq]
    constructor
    · congr 1
      funext j
      by_cases hj : j = s
      · subst hj; simp [h.1]
      · simp [hj]
    · congr 1
      funext m j
      by_cases hj : j = s
      · subst hj; simp [h.1]
      · simp [hj]

/-- The `D` parties before `i`. -/
def Prev (D : Nat) (i j : Fin n) : Prop := ∃ k, k < D ∧ j = back i (k + 1)

instance (D : Nat) (i j : Fin n) : Decidable (Prev D i j) :=
  decidable_of_iff (∃ k ∈ List.range D, j = back i (k + 1)) (by simp [Prev])

theorem receiveSeededNext_eq [Sample R F] (g : ShamirRng n R F) {i : Fin n} (hid : g.id = i) {D : Nat}
    (hD : D < n) (a : Nat)
    (X : Nat → Fin n → F) :
    g.receiveSeededNext D ((List.range a).map X) =
      ({ g with rngs := fun j => if Prev D i j ∧ ¬ j < i then adv F a (g.rngs j) else g.rngs j },
        (List.range a).map fun m j =>
          if Prev D i j ∧ ¬ j < i then val a (g.rngs j) m else X m j) := by
  subst hid
  have h1 : g.receiveSeededNext D ((List.range a).map X) =
      ((((List.range D).map fun i => back g.id (i + 1)).filter fun j => ¬ j < g.id).foldl
        ShamirRng.fillFrom (g, (List.range a).map X)) := by
    rw [ShamirRng.receiveSeededNext, List.foldl_filter, List.foldl_map]
    congr 1
    funext st i
    by_cases h : back g.id (i + 1) < g.id <;> simp [h]
  rw [h1, foldl_fillFrom]
  · have h2 : ∀ j, (j ∈ ((List.range D).map fun i => back g.id (i + 1)).filter fun j => ¬ j < g.id) ↔
        (Prev D g.id j ∧ ¬ j < g.id) := by
      intro j
      simp only [List.mem_filter, List.mem_map, List.mem_range, Prev, decide_eq_true_eq]
      constructor
      · rintro ⟨⟨k, hk, rfl⟩, h⟩; exact ⟨⟨k, hk, rfl⟩, h⟩
      · rintro ⟨⟨k, hk, rfl⟩, h⟩; exact ⟨⟨k, hk, rfl⟩, h⟩
    simp only [h2]
  · refine List.Nodup.filter _ (nodup_map_range fun x y hx hy he => ?_)
    have := back_inj (by omega) (by omega) he
    omega

theorem receiveSeededPrev_eq [Sample R F] (g : ShamirRng n R F) {i : Fin n} (hid : g.id = i) {D : Nat}
    (hD : D < n) (a : Nat)
    (X : Nat → Fin n → F) :
    g.receiveSeededPrev D ((List.range a).map X) =
      ({ g with rngs := fun j => if Prev D i j ∧ ¬ j > i then adv F a (g.rngs j) else g.rngs j },
        (List.range a).map fun m j =>
          if Prev D i j ∧ ¬ j > i then val a (g.rngs j) m else X m j) := by
  subst hid
  have h1 : g.receiveSeededPrev D ((List.range a).map X) =
      ((((List.range D).map fun i => back g.id (i + 1)).filter fun j => ¬ j > g.id).foldl
        ShamirRng.fillFrom (g, (List.range a).map X)) := by
    rw [ShamirRng.receiveSeededPrev, List.foldl_filter, List.foldl_map]
    congr 1
    funext st i
    by_cases h : back g.id (i + 1) > g.id <;> simp [h]
  rw [h1, foldl_fillFrom]
  · have h2 : ∀ j, (j ∈ ((List.range D).map fun i => back g.id (i + 1)).filter fun j => ¬ j > g.id) ↔
        (Prev D g.id j ∧ ¬ j > g.id) := by
      intro j
      simp only [List.mem_filter, List.mem_map, List.mem_range, Prev, decide_eq_true_eq]
      constructor
      · rintro ⟨⟨k, hk, rfl⟩, h⟩; exact ⟨⟨k, hk, rfl⟩, h⟩
      · rintro ⟨⟨k, hk, rfl⟩, h⟩; exact ⟨⟨k, hk, rfl⟩, h⟩
    simp only [h2]
  · refine List.Nodup.filter _ (nodup_map_range fun x y hx hy he => ?_)
    have := back_inj (by omega) (by omega) he
    omega

theorem prev_iff_fwd {D : Nat} (hD : D < n) {i j : Fin n} :
    Prev D i j ↔ ∃ k, k < D ∧ i = fwd j (k + 1) := by
  constructor
  · rintro ⟨k, hk, h⟩
    exact ⟨k, hk, ((fwd_eq_iff (by omega)).mpr h.symm).symm⟩
  · rintro ⟨k, hk, h⟩
    exact ⟨k, hk, ((fwd_eq_iff (by omega)).mp h.symm).symm⟩

theorem dealShares_eq [Sample R F] (g : ShamirRng n R F) {i : Fin n} (hid : g.id = i) {D : Nat}
    (hD : D < n) (a : Nat)
    (X : Nat → List F) :
    g.dealShares D ((List.range a).map X) =
      ({ g with rngs := fun j => if Prev D j i then adv F a (g.rngs j) else g.rngs j },
        (List.range a).map fun m =>
          X m ++ (List.range D).map fun k => val a (g.rngs (fwd i (k + 1))) m) := by
  subst hid
  induction D with
  | zero => simp [ShamirRng.dealShares, Prev]
  | succ D ih =>
    rw [ShamirRng.dealShares, List.range_succ, List.foldl_append]
    have := ih (by omega)
    rw [ShamirRng.dealShares] at this
    rw [this]
    simp only [List.foldl_cons, List.foldl_nil, ShamirRng.draw, List.length_map, List.length_range]
    have hne : ¬ Prev D (fwd g.id (D + 1)) g.id := by
      rw [prev_iff_fwd (by omega)]
      rintro ⟨k, hk, h⟩
      have := fwd_inj (by omega) (by omega) h
      omega
    simp only [hne, if_false]
    rw [zipWith_rangeMap _ (0 : F) _ (by simp)]
    simp only [Prod.mk.injEq]
    constructor
    · congr 1
      funext j
      by_cases hj : j = fwd g.id (D + 1)
      · subst hj
        have hp : Prev (D + 1) (fwd g.id (D + 1)) g.id :=
          (prev_iff_fwd hD).mpr ⟨D, by omega, rfl⟩
        simp [hp, adv]
      · have hp : Prev (D + 1) j g.id ↔ Prev D j g.id := by
          rw [prev_iff_fwd hD, prev_iff_fwd (by omega)]
          constructor
          · rintro ⟨k, hk, h⟩
            refine ⟨k, ?_, h⟩
            rcases Nat.lt_succ_iff_lt_or_eq.mp hk with h' | rfl
            · exact h'
            · exact absurd h hj
          · rintro ⟨k, hk, h⟩; exact ⟨k, by omega, h⟩
        simp [hj, hp]
    · congr 1
      funext m
      simp [val]

theorem matmul_eq (mat : List (Fin n → F)) (inp : Fin n → F) :
    ShamirRng.matmul mat inp = mat.map fun row => ∑ c, inp c * row c := by
  rw [ShamirRng.matmul]
  refine List.map_congr_left fun row _ => ?_
  have : ∀ (l : List (Fin n)) (x : F), l.foldl (fun res c => res + inp c * row c) x =
      x + (l.map fun c => inp c * row c).sum := by
    intro l
    induction l with
    | nil => simp
    | cons c cs ih => intro x; rw [List.foldl_cons, ih]; simp [add_assoc]
  rw [this, zero_add, ← List.ofFn_eq_map, List.sum_ofFn]

/-! ## One seeded phase

`S i j` is the generator that party `i` shares with `j`. -/

section Phase

variable [Sample R F] (D a : Nat) (S₀ : Fin n → Fin n → R)

/-- After receiving from later parties. -/
def S₁ (F : Type) [Sample R F] (i j : Fin n) : R :=
  if Prev D i j ∧ ¬ j < i then adv F a (S₀ i j) else S₀ i j
/-- After dealing to the next parties. -/
def S₂ (F : Type) [Sample R F] (i j : Fin n) : R :=
  if Prev D j i then adv F a (S₁ D a S₀ F i j) else S₁ D a S₀ F i j
/-- After receiving from earlier parties. -/
def S₃ (F : Type) [Sample R F] (i j : Fin n) : R :=
  if Prev D i j ∧ ¬ j > i then adv F a (S₂ D a S₀ F i j) else S₂ D a S₀ F i j

omit [Field F] in
theorem S₃_sync (h : ∀ i j, i ≠ j → S₀ i j = S₀ j i) (i j : Fin n) (hij : i ≠ j) :
    S₃ D a S₀ F i j = S₃ D a S₀ F j i := by
  wlog hlt : i < j generalizing i j
  · exact (this j i hij.symm (lt_of_le_of_ne (not_lt.mp hlt) hij.symm)).symm
  have h1 : ¬ j < i := not_lt.mpr hlt.le
  simp only [S₃, S₂, S₁, hlt, h1, not_true_eq_false, and_false, if_false, not_false_eq_true, and_true,
    gt_iff_lt]
  rw [h i j hij]

/-- A party draws exactly the value dealt to it. -/
theorem received_eq_dealt (h : ∀ i j, i ≠ j → S₀ i j = S₀ j i) (i j : Fin n) (hij : i ≠ j)
    (hp : Prev D i j) (m : Nat) :
    (if Prev D i j ∧ ¬ j > i then val a (S₂ D a S₀ F i j) m
      else if Prev D i j ∧ ¬ j < i then val a (S₀ i j) m else (0 : F)) =
      val a (S₁ D a S₀ F j i) m := by
  rcases lt_or_gt_of_ne hij with hlt | hlt
  · have h1 : ¬ j < i := not_lt.mpr hlt.le
    simp [S₁, hp, hlt, h1, h i j hij]
  · have h1 : ¬ i < j := not_lt.mpr hlt.le
    simp only [S₂, S₁, hp, hlt, h1, h i j hij, not_false_eq_true, and_true, if_true, gt_iff_lt,
      not_true_eq_false, and_false, if_false]

end Phase

section Double

variable [Sample R F]

/-- Own share and the shares drawn from shared generators, before the messages arrive. -/
def known (D a : Nat) (S : Fin n → Fin n → R) (p : Fin n → Nat → List F) (i : Fin n) (m : Nat) :
    Fin n → F :=
  Function.update (fun j =>
    if Prev D i j ∧ ¬ j > i then val a (S₂ D a S F i j) m
    else if Prev D i j ∧ ¬ j < i then val a (S i j) m else 0) i
    (horner (p i m) ((point i : Nat) : F))

theorem known_eq {D a : Nat} (hD : D < n) {S : Fin n → Fin n → R} {p : Fin n → Nat → List F}
    (hS : ∀ i j, i ≠ j → S i j = S j i)
    (hp : ∀ j m k, m < a → k < D → horner (p j m) ((point (fwd j (k + 1)) : Nat) : F) =
      val a (S₁ D a S F j (fwd j (k + 1))) m)
    (i : Fin n) {m : Nat} (hm : m < a) (j : Fin n) (hj : j = i ∨ Prev D i j) :
    known D a S p i m j = horner (p j m) ((point i : Nat) : F) := by
  by_cases hij : j = i
  · subst hij; simp [known]
  · have hpr : Prev D i j := by tauto
    rw [known, Function.update_of_ne hij, received_eq_dealt D a S hS i j (Ne.symm hij) hpr]
    obtain ⟨k, hk, hik⟩ := (prev_iff_fwd hD).mp hpr
    rw [hik, hp j m k hm hk]

/-- The dealt shares of degree `t`. -/
def dealtT (t a : Nat) (S : Fin n → Fin n → R) (i : Fin n) (m : Nat) : List F :=
  (List.range (t + 1)).map fun k => val a (S₁ (t + 1) a S F i (fwd i (k + 1))) m

def polyT (t a : Nat) (g : Fin n → ShamirRng n R F) (i : Fin n) (m : Nat) : List F :=
  interpolateFromPrecomputed (dealtT t a (fun i => (g i).rngs) i m) (g i).precompT

def dealt2 (t a : Nat) (S : Fin n → Fin n → R) (r : Fin n → Nat → F) (i : Fin n) (m : Nat) : List F :=
  r i m :: (List.range (t * 2)).map fun k => val a (S₁ (t * 2) a S F i (fwd i (k + 1))) m

def poly2 (t a : Nat) (g : Fin n → ShamirRng n R F) (i : Fin n) (m : Nat) : List F :=
  interpolateFromPrecomputed (dealt2 t a (S₃ (t + 1) a (fun i => (g i).rngs) F)
    (fun i m => (polyT t a g i m).getD 0 0) i m) (g i).precomp2T

/-- The generators after a batch of double sharings. -/
def rngsAfter (t a : Nat) (g : Fin n → ShamirRng n R F) : Fin n → Fin n → R :=
  S₃ (t * 2) a (S₃ (t + 1) a (fun i => (g i).rngs) F) F

theorem doubleShareLocal_eq {t a : Nat} {g : Fin n → ShamirRng n R F} (h : RngCorr t g) (i : Fin n) :
    (g i).doubleShareLocal a =
      ({ g i with rngs := rngsAfter t a g i },
        ((List.range a).map (known (t + 1) a (fun i => (g i).rngs) (polyT t a g) i),
          (List.range a).map (known (t * 2) a (S₃ (t + 1) a (fun i => (g i).rngs) F) (poly2 t a g) i)),
        ((List.range a).map (polyT t a g i), (List.range a).map (poly2 t a g i))) := by
  have h1 := h.live
  have h2 := h.bound
  have hid := h.id i
  have hz : (List.replicate a (fun _ : Fin n => (0 : F))) = (List.range a).map fun _ _ => 0 := by
    simp
  have hz' : (List.replicate a ([] : List F)) = (List.range a).map fun _ => [] := by
    simp
  unfold ShamirRng.doubleShareLocal
  simp only [h.thr i]
  simp only [hz, hz', receiveSeededNext_eq (i := i) (D := t + 1) _ hid (by omega : t + 1 < n)]
  rw [dealShares_eq (i := i) (D := t + 1) (hid := ?h1) (hD := (by omega : t + 1 < n))]
  case h1 => exact hid
  dsimp only
  rw [receiveSeededPrev_eq (i := i) (D := t + 1) (hid := ?h2) (hD := (by omega : t + 1 < n))]
  case h2 => exact hid
  simp only [ShamirRng.setMyShare, List.map_map, setCol_rangeMap, hid]
  rw [receiveSeededNext_eq (i := i) (D := t * 2) (hid := ?h3) (hD := (by omega : t * 2 < n))]
  case h3 => first | exact hid | rfl
  dsimp only
  have hd : ∀ (g' : ShamirRng n R F) (f : Nat → F) (_ : g'.id = i),
      g'.dealShares (t * 2) ((List.range a).map ((fun r => [r]) ∘ f)) =
      ({ g' with rngs := fun j => if Prev (t * 2) j i then adv F a (g'.rngs j) else g'.rngs j },
        (List.range a).map fun m =>
          f m :: (List.range (t * 2)).map fun k => val a (g'.rngs (fwd i (k + 1))) m) := by
    intro g' f hg
    rw [show ((fun r => [r]) ∘ f) = fun m => [f m] from rfl,
      dealShares_eq (i := i) (D := t * 2) _ hg (by omega)]
    rfl
  rw [hd _ _ ?h4]
  case h4 => first | exact hid | rfl
  dsimp only
  rw [receiveSeededPrev_eq (i := i) (D := t * 2) (hid := ?h5) (hD := (by omega : t * 2 < n))]
  case h5 => first | exact hid | rfl
  simp only [List.map_map, setCol_rangeMap, evaluatePoly_eq]
  refine Prod.ext ?_ (Prod.ext (Prod.ext ?_ ?_) (Prod.ext ?_ ?_))
  · simp only [hid, h.thr i]; rfl
  · rfl
  · rfl
  · rfl
  · rfl

/-! ## Properties of the dealt polynomials -/

theorem polyT_spec {t a : Nat} {g : Fin n → ShamirRng n R F} (h : RngCorr t g) (j : Fin n) (m : Nat) :
    (polyT t a g j m).length = t + 1 ∧
    ∀ k, k < t + 1 → horner (polyT t a g j m) ((point (fwd j (k + 1)) : Nat) : F) =
      val a (S₁ (t + 1) a (fun i => (g i).rngs) F j (fwd j (k + 1))) m := by
  have hn : ((List.range (t + 1)).map fun k => point (fwd j (k + 1))).Nodup :=
    nodup_map_range fun x y hx hy he => by
      have := h.live
      have := fwd_inj (i := j) (by omega) (by omega) (point_inj he); omega
  have := interpolate_spec hn (h.interpT j) (shares := dealtT t a (fun i => (g i).rngs) j m)
    (by simp [dealtT])
  refine ⟨by simpa [polyT] using this.1, fun k hk => ?_⟩
  have h2 := this.2 k (by simpa using hk)
  simpa [polyT, dealtT] using h2
theorem poly2_spec {t a : Nat} {g : Fin n → ShamirRng n R F} (h : RngCorr t g) (j : Fin n) (m : Nat) :
    (poly2 t a g j m).length = t * 2 + 1 ∧
    horner (poly2 t a g j m) (0 : F) = horner (polyT t a g j m) (0 : F) ∧
    ∀ k, k < t * 2 → horner (poly2 t a g j m) ((point (fwd j (k + 1)) : Nat) : F) =
      val a (S₁ (t * 2) a (S₃ (t + 1) a (fun i => (g i).rngs) F) F j (fwd j (k + 1))) m := by
  have hn : (0 :: (List.range (t * 2)).map fun k => point (fwd j (k + 1))).Nodup := by
    refine List.nodup_cons.mpr ⟨by simp [point], nodup_map_range fun x y hx hy he => ?_⟩
    have := h.bound
    have := fwd_inj (i := j) (by omega) (by omega) (point_inj he); omega
  have := interpolate_spec hn (h.interp2T j) (shares := dealt2 t a
    (S₃ (t + 1) a (fun i => (g i).rngs) F) (fun i m => (polyT t a g i m).getD 0 0) j m)
    (by simp [dealt2])
  refine ⟨by simpa [poly2] using this.1, ?_, fun k hk => ?_⟩
  · have h2 := this.2 0 (by simp)
    simp only [List.getElem_cons_zero, Nat.cast_zero, dealt2] at h2
    rw [poly2, dealt2, h2]
    rcases hp : polyT t a g j m with _ | ⟨x, xs⟩ <;> simp
  · have h2 := this.2 (k + 1) (by simpa using hk)
    simpa [poly2, dealt2] using h2

/-- `msgsTo` of matching sends and receives. -/
theorem msgs_match (f : Fin n → Fin n → M) (off N : Nat) (hN : N + off ≤ n) (h0 : 0 < off) (a b : Fin n) :
    msgsTo b ((List.range N).map fun k => (fwd a (k + off), f a (fwd a (k + off)))) =
      msgsTo a ((List.range N).map fun k => (back b (k + off), f (back b (k + off)) b)) := by
  rw [msgsTo_map_nodup _ _ _ (nodup_map_range fun x y hx hy he => by
      have := fwd_inj (i := a) (by omega) (by omega) he; omega),
    msgsTo_map_nodup _ _ _ (nodup_map_range fun x y hx hy he => by
      have := back_inj (i := b) (by omega) (by omega) he; omega)]
  have hp : ∀ k ∈ List.range N,
      decide (fwd a (k + off) = b) = decide (back b (k + off) = a) := fun k hk => by
    have := List.mem_range.mp hk
    simp only [decide_eq_decide]
    exact fwd_eq_iff (by omega)
  rw [List.find?_congr hp]
  cases hf : (List.range N).find? (fun k => decide (back b (k + off) = a)) with
  | none => rfl
  | some k =>
    have h1 := List.find?_some hf
    have h2 := List.mem_range.mp (List.mem_of_find?_eq_some hf)
    simp only [decide_eq_true_eq] at h1
    simp only [h1]
    rw [(fwd_eq_iff (by omega)).mpr h1]

theorem foldl_setCol {a : Nat} (Y : Fin n → Nat → F) (sids : List (Fin n)) (X : Nat → Fin n → F) :
    sids.foldl (fun out sid => ShamirRng.setCol sid out ((List.range a).map (Y sid)))
      ((List.range a).map X) =
    (List.range a).map fun m j => if j ∈ sids then Y j m else X m j := by
  induction sids generalizing X with
  | nil => simp
  | cons s ss ih =>
    rw [List.foldl_cons, setCol_rangeMap, ih]
    refine List.map_congr_left fun m _ => ?_
    funext j
    by_cases hj : j = s
    · subst hj; by_cases h : j ∈ ss <;> simp [h]
    · simp [hj]

theorem lrun_sendShares [Codec M (List F)] {seeded : Nat} (hs : seeded + 1 ≤ n) (g : ShamirRng n R F)
    {i : Fin n} (hid : g.id = i) (polys : List (List F)) (s : S) :
    LRun (M := M) (g.sendShareOfRandomness seeded polys) i s []
      ((List.range (n - seeded - 1)).map fun k => (fwd i (k + (seeded + 1)),
        Codec.enc (polys.map fun p => horner p ((point (fwd i (k + (seeded + 1))) : Nat) : F)))) () s := by
  subst hid
  rw [ShamirRng.sendShareOfRandomness, if_neg (by omega)]
  have h2 := LRun.forM (M := M) (E := Err) (i := g.id) (s := s) (l := List.range (n - seeded - 1))
    (f := fun i => sendMany (fwd g.id (i + 1 + seeded)) (polys.map fun p =>
      evaluatePoly p ((point (fwd g.id (i + 1 + seeded)) : Nat) : F))) (inp := fun _ => [])
    (out := fun k => [(fwd g.id (k + (seeded + 1)),
        Codec.enc (polys.map fun p => horner p ((point (fwd g.id (k + (seeded + 1))) : Nat) : F)))])
    (fun k _ => by
      simp only [show k + 1 + seeded = k + (seeded + 1) by omega, evaluatePoly_eq]
      exact LRun.send _ _ _ _)
  simpa [List.map_eq_flatMap] using h2

theorem lrun_receiveShares [Codec M (List F)] {seeded a : Nat} (hs : seeded + 1 ≤ n)
    (g : ShamirRng n R F) {i : Fin n} (hid : g.id = i) (X : Nat → Fin n → F) (Y : Fin n → Nat → F)
    (s : S) :
    LRun (M := M) (g.receiveShareOfRandomness seeded ((List.range a).map X)) i s
      ((List.range (n - seeded - 1)).map fun k => (back i (k + (seeded + 1)),
        Codec.enc ((List.range a).map (Y (back i (k + (seeded + 1)))))))
      [] ((List.range a).map fun m j =>
        if j ∈ (List.range (n - seeded - 1)).map (fun k => back i (k + (seeded + 1))) then Y j m
        else X m j) s := by
  subst hid
  rw [ShamirRng.receiveShareOfRandomness, if_neg (by omega)]
  have h2 := LRun.foldlM (M := M) (E := Err) (i := g.id) (s := s) (l := List.range (n - seeded - 1))
    (P := fun _ => True) (a := (List.range a).map X)
    (f := fun (out : List (Fin n → F)) i => do
      let sid := back g.id (seeded + (i + 1))
      let shares : List F ← recvMany sid
      pure (ShamirRng.setCol sid out shares))
    (g := fun out k => ShamirRng.setCol (back g.id (k + (seeded + 1))) out
      ((List.range a).map (Y (back g.id (k + (seeded + 1))))))
    (inp := fun k => [(back g.id (k + (seeded + 1)),
        Codec.enc ((List.range a).map (Y (back g.id (k + (seeded + 1))))))])
    (out := fun _ => []) trivial (fun k _ out _ => by
      refine ⟨?_, trivial⟩
      rw [show seeded + (k + 1) = k + (seeded + 1) by omega]
      have := LRun.bind (k := fun shares => pure (ShamirRng.setCol (back g.id (k + (seeded + 1))) out shares))
        (LRun.recv (M := M) (back g.id (k + (seeded + 1)))
        ((List.range a).map (Y (back g.id (k + (seeded + 1))))) g.id s) (LRun.pure _ _ _)
      simpa [recvMany] using this)
  have h3 := foldl_setCol (a := a) Y ((List.range (n - seeded - 1)).map (fun k => back g.id (k + (seeded + 1)))) X
  rw [List.foldl_map] at h3
  rw [h3] at h2
  simpa [List.map_eq_flatMap] using h2
theorem range_succ_shift (k N : Nat) (i : Fin n) (hk : k + N + 1 = n) (j : Fin n) (hj : j ≠ i)
    (hp : ¬ Prev k i j) : j ∈ (List.range N).map (fun l => back i (l + (k + 1))) := by
  rw [List.mem_map]
  have hi := i.2
  have hj' := j.2
  have hne : j.val ≠ i.val := fun h => hj (Fin.ext h)
  -- the distance from `i` back to `j`
  obtain ⟨d, hd0, hdn, hd⟩ : ∃ d, 0 < d ∧ d < n ∧ j = back i d := by
    by_cases hlt : j.val < i.val
    · exact ⟨i.val - j.val, by omega, by omega, by
        ext; rw [back_val _ (by omega)]; split <;> omega⟩
    · exact ⟨i.val + n - j.val, by omega, by omega, by
        ext; rw [back_val _ (by omega)]; split <;> omega⟩
  have hkd : k < d := by
    by_contra hc
    exact hp ⟨d - 1, by omega, by rw [show d - 1 + 1 = d by omega]; exact hd⟩
  exact ⟨d - (k + 1), List.mem_range.mpr (by omega), by
    rw [show d - (k + 1) + (k + 1) = d by omega]; exact hd.symm⟩

theorem lastRows {D a : Nat} (hD : D < n) {S : Fin n → Fin n → R} {p : Fin n → Nat → List F}
    (hS : ∀ i j, i ≠ j → S i j = S j i)
    (hp : ∀ j m k, m < a → k < D → horner (p j m) ((point (fwd j (k + 1)) : Nat) : F) =
      val a (S₁ D a S F j (fwd j (k + 1))) m) (i : Fin n) :
    ((List.range a).map fun m j =>
        if j ∈ (List.range (n - D - 1)).map (fun k => back i (k + (D + 1))) then
          horner (p j m) ((point i : Nat) : F)
        else known D a S p i m j) =
      (List.range a).map fun m j => horner (p j m) ((point i : Nat) : F) := by
  refine List.map_congr_left fun m hm => ?_
  funext j
  split
  · rfl
  · next h =>
    refine known_eq hD hS hp i (List.mem_range.mp hm) j ?_
    by_contra hc
    exact h (range_succ_shift D (n - D - 1) i (by omega) j (fun e => hc (.inl e)) fun e => hc (.inr e))

/-- All parties end up with the values of the dealers' polynomials at their own point. -/
theorem spec_randomDoubleShare [Codec M (List F)] {t a : Nat} {g : Fin n → ShamirRng n R F}
    (h : RngCorr t g) (st : Fin n → S) :
    Spec (M := M) (fun i => (g i).randomDoubleShare a) st (fun r st' =>
      (r = fun i => ({ g i with rngs := rngsAfter t a g i },
        (List.range a).map fun m j => horner (polyT t a g j m) ((point i : Nat) : F),
        (List.range a).map fun m j => horner (poly2 t a g j m) ((point i : Nat) : F))) ∧ st' = st) := by
  have h1 := h.live
  have h2 := h.bound
  let msgs (D : Nat) (p : Fin n → Nat → List F) (x y : Fin n) : M :=
    Codec.enc ((List.range a).map fun m => horner (p x m) ((point y : Nat) : F))
  let outs (D : Nat) (p : Fin n → Nat → List F) (i : Fin n) : List (Fin n × M) :=
    (List.range (n - D - 1)).map fun k => (fwd i (k + (D + 1)), msgs D p i (fwd i (k + (D + 1))))
  let ins (D : Nat) (p : Fin n → Nat → List F) (i : Fin n) : List (Fin n × M) :=
    (List.range (n - D - 1)).map fun k => (back i (k + (D + 1)), msgs D p (back i (k + (D + 1))) i)
  let G : Fin n → ShamirRng n R F := fun i => { g i with rngs := rngsAfter t a g i }
  let k₁ (i : Fin n) : List (Fin n → F) := (List.range a).map (known (t + 1) a (fun i => (g i).rngs) (polyT t a g) i)
  let k₂ (i : Fin n) : List (Fin n → F) := (List.range a).map (known (t * 2) a (S₃ (t + 1) a (fun i => (g i).rngs) F) (poly2 t a g) i)
  refine Spec.round (out := fun i => outs (t + 1) (polyT t a g) i ++ outs (t * 2) (poly2 t a g) i)
    (inp := fun i => ins (t + 1) (polyT t a g) i ++ ins (t * 2) (poly2 t a g) i)
    (q := fun i => (do
      let rcvT ← (G i).receiveShareOfRandomness (t + 1) (k₁ i)
      let rcv2T ← (G i).receiveShareOfRandomness (t * 2) (k₂ i)
      pure (G i, rcvT, rcv2T) : MPC (Fin n) S M Err _) i (st i))
    (st' := st) ?_ ?_ ?_ ?_ ⟨rfl, rfl⟩
  · intro i
    have e1 := lrun_sendShares (M := M) (seeded := t + 1) (by omega) (G i) (h.id i)
      ((List.range a).map (polyT t a g i)) (st i)
    have e2 := lrun_sendShares (M := M) (seeded := t * 2) (by omega) (G i) (h.id i)
      ((List.range a).map (poly2 t a g i)) (st i)
    simp only [ShamirRng.randomDoubleShare, doubleShareLocal_eq h, h.thr, G]
    have e3 := LRun.then (k := fun _ => do
      (G i).sendShareOfRandomness (t * 2) ((List.range a).map (poly2 t a g i))
      let rcvT ← (G i).receiveShareOfRandomness (t + 1) (k₁ i)
      let rcv2T ← (G i).receiveShareOfRandomness (t * 2) (k₂ i)
      pure (G i, rcvT, rcv2T)) e1 (LRun.then (k := fun _ => do
      let rcvT ← (G i).receiveShareOfRandomness (t + 1) (k₁ i)
      let rcv2T ← (G i).receiveShareOfRandomness (t * 2) (k₂ i)
      pure (G i, rcvT, rcv2T)) e2 (LSteps.refl _))
    simp only [List.append_nil, List.map_map, Function.comp_def, G, h.thr] at e3
    exact e3
  · intro i
    have e1 := lrun_receiveShares (M := M) (a := a) (seeded := t + 1) (by omega) (G i) (h.id i)
      (known (t + 1) a (fun i => (g i).rngs) (polyT t a g) i)
      (fun j m => horner (polyT t a g j m) ((point i : Nat) : F)) (st i)
    have e2 := lrun_receiveShares (M := M) (a := a) (seeded := t * 2) (by omega) (G i) (h.id i)
      (known (t * 2) a (S₃ (t + 1) a (fun i => (g i).rngs) F) (poly2 t a g) i)
      (fun j m => horner (poly2 t a g j m) ((point i : Nat) : F)) (st i)
    rw [lastRows (by omega) h.sync (fun j m k _ hk => (polyT_spec h j m).2 k hk)] at e1
    rw [lastRows (by omega) (S₃_sync (t + 1) a _ h.sync)
      (fun j m k _ hk => (poly2_spec h j m).2.2 k hk)] at e2
    have e3 := LRun.bind (k := fun rcvT => do
      let rcv2T ← (G i).receiveShareOfRandomness (t * 2) (k₂ i)
      pure (G i, rcvT, rcv2T)) e1 (LRun.bind (k := fun rcv2T => pure (G i, _, rcv2T)) e2
        (LRun.pure _ i (st i)))
    simp only [List.append_nil] at e3
    exact e3
  · intro x y
    simp only [msgsTo_append]
    congr 1
    · exact msgs_match (msgs (t + 1) (polyT t a g)) (t + 1 + 1) (n - (t + 1) - 1) (by omega) (by omega) x y
    · exact msgs_match (msgs (t * 2) (poly2 t a g)) (t * 2 + 1) (n - t * 2 - 1) (by omega) (by omega) x y
  · intro i hc
    simp only [List.map_append, List.mem_append, List.map_map, List.mem_map, List.mem_range,
      Function.comp_apply, ins] at hc
    rcases hc with ⟨k, hk, hc⟩ | ⟨k, hk, hc⟩
    · exact back_ne (by omega) (by omega) hc
    · exact back_ne (by omega) (by omega) hc

end Double

end Verif.Shamir
