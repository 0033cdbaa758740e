import Verif.Shamir.ShamirLemmas
import Verif.Rep3.Cols
import Verif.Spec.Tape

/-!
# Lemmas: dealing and combining Shamir shares
-/

namespace Verif.Shamir

variable {n : Nat} {F V R : Type} [Field F] [AddCommGroup V] [Module F V]

/-! ## Dealing -/

/-- The shares dealt for a vector, one column per secret. -/
def shareCols (F : Type) [Field F] [Module F V] [Sample R V] (d : Nat) : List V → R → List (Nat → V)
  | [], _ => []
  | v :: vs, rng =>
    (fun i : Nat => horner (v :: (sampleN rng d).1) ((i + 1 : Nat) : F)) ::
      shareCols F d vs (sampleN (α := V) rng d).2

theorem share_eq [Sample R V] (v : V) (num d : Nat) (rng : R) :
    (share F v num d rng).1 = (List.range num).map fun i : Nat =>
      horner (v :: (sampleN rng d).1) ((i + 1 : Nat) : F) := by
  simp only [share, evaluatePoly_eq]

theorem shareManyLoop_eq [Sample R V] (d num : Nat) (vs : List V) (acc : Nat → List V) (rng : R) :
    (shareManyLoop F d num vs ((List.range num).map acc) rng).1 =
      (List.range num).map fun i => acc i ++ (shareCols F d vs rng).map (· i) := by
  induction vs generalizing acc rng with
  | nil => simp [shareManyLoop, shareCols]
  | cons v vs ih =>
    have h1 := share_eq (F := F) v num d rng
    have h2 : (share F v num d rng).2 = (sampleN (α := V) rng d).2 := rfl
    simp only [shareManyLoop, h1, h2]
    rw [show List.zipWith (fun r s => r ++ [s]) ((List.range num).map acc)
        ((List.range num).map fun i : Nat => horner (v :: (sampleN rng d).1) ((i + 1 : Nat) : F)) =
        (List.range num).map fun i => acc i ++ [horner (v :: (sampleN rng d).1) ((i + 1 : Nat) : F)] by
      rw [List.zipWith_map, List.zipWith_self], ih]
    simp [shareCols]

theorem shareMany_eq [Sample R V] (vs : List V) (d num : Nat) (rng : R) :
    (shareMany F vs d num rng).1 =
      (List.range num).map fun i => (shareCols F d vs rng).map (· i) := by
  rw [shareMany, show List.replicate num ([] : List V) = (List.range num).map fun _ => [] by
    simp [List.map_const'], shareManyLoop_eq]
  simp

theorem range_map_ofFn {α : Type} (num : Nat) (f : Nat → α) :
    (List.range num).map f = List.ofFn fun i : Fin num => f i.val := by
  rw [List.ofFn_eq_map, ← List.map_coe_finRange_eq_range, List.map_map]
  rfl

theorem share_isShamir [Sample R V] (v : V) (d : Nat) (rng : R) :
    ∃ s : Fin n → V, (share F v n d rng).1 = List.ofFn s ∧ IsShamir F d s v := by
  refine ⟨_, by rw [share_eq, range_map_ofFn], ?_⟩
  have := isShamir_of_horner (F := F) (n := n) (poly := v :: (sampleN (R := R) rng d).1) (d := d)
    (by simp)
  rw [horner_zero] at this
  exact this

theorem shareCols_isShamir [Sample R V] (vs : List V) (d : Nat) (rng : R) :
    IsShamirs F d (fun i : Fin n => (shareCols F d vs rng).map (· i.val)) vs := by
  refine ⟨(shareCols F d vs rng).map fun c i => c i.val, by funext i; simp, ?_⟩
  induction vs generalizing rng with
  | nil => exact .nil
  | cons v vs ih =>
    refine .cons ?_ (ih _)
    have := isShamir_of_horner (F := F) (n := n) (poly := v :: (sampleN (R := R) rng d).1) (d := d)
      (by simp)
    rw [horner_zero] at this
    exact this

/-! ## Combining -/

theorem combine_poly [DecidableEq F] {coeffs : List Nat} (h : Points F coeffs) {d : Nat}
    (hd : d < coeffs.length) (c : Nat → V) :
    combine F (coeffs.map fun i : Nat => polyAt d c (i : F)) coeffs d = .ok (c 0) := by
  have h' : Points F (coeffs.take (d + 1)) :=
    ⟨h.nodup.sublist (List.take_sublist _ _),
      h.inj.mono fun i hi => List.mem_of_mem_take hi⟩
  simp only [combine, List.length_map, ne_eq, not_true_eq_false, if_false,
    show ¬ coeffs.length ≤ d by omega, lagrangeFromCoeff_eq h', orPanic, ← List.map_take]
  show Except.ok _ = _
  rw [reconstruct_poly h' (by simp; omega)]

theorem mapM_ok {α β ε : Type} (l : List α) (f : α → Except ε β) (g : α → β)
    (h : ∀ a ∈ l, f a = .ok (g a)) : l.mapM f = .ok (l.map g) := by
  induction l with
  | nil => rfl
  | cons a as ih =>
    rw [List.mapM_cons, h a (by simp), ih fun b hb => h b (by simp [hb])]
    rfl

theorem mapM_some {α β : Type} (l : List α) (f : α → Option β) (g : α → β)
    (h : ∀ a ∈ l, f a = some (g a)) : l.mapM f = some (l.map g) := by
  induction l with
  | nil => rfl
  | cons a as ih =>
    rw [List.mapM_cons, h a (by simp), ih fun b hb => h b (by simp [hb])]
    rfl

theorem combineMany_cols [DecidableEq F] {coeffs : List Nat} (h : Points F coeffs) {d : Nat}
    (hd : d < coeffs.length) (cs : List (Nat → V)) :
    combineMany F (coeffs.map fun i : Nat => cs.map fun c => polyAt d c (i : F)) coeffs d =
      .ok (cs.map (· 0)) := by
  have h' : Points F (coeffs.take (d + 1)) :=
    ⟨h.nodup.sublist (List.take_sublist _ _),
      h.inj.mono fun i hi => List.mem_of_mem_take hi⟩
  simp only [combineMany, List.length_map, ne_eq, not_true_eq_false, if_false,
    show ¬ coeffs.length ≤ d by omega, lagrangeFromCoeff_eq h', orPanic]
  split
  · rename_i hs
    simp only [List.map_eq_nil_iff] at hs
    subst hs
    simp at hd
  · rename_i first rest hs
    have hall : ∀ x ∈ first :: rest, x.length = cs.length := by
      rw [← hs]
      simp only [List.mem_map]
      rintro _ ⟨i, -, rfl⟩
      simp
    rw [if_neg (by
      simp only [List.any_eq_true, not_exists, not_and]
      intro x hx
      simp [hall x (by simp [hx]), hall first (by simp)]), ← List.map_take]
    show (List.mapM _ _ : Combined (List V)) = _
    rw [mapM_ok _ _ fun i => (cs.map (· 0)).getD i 0, hall first (by simp)]
    · congr 1
      refine List.ext_getElem (by simp) fun k h1 h2 => ?_
      simp only [List.length_map, List.length_range] at h1 h2
      simp [h1]
    · intro k hk
      have hk' : k < cs.length := by
        have := List.mem_range.mp hk
        rwa [hall first (by simp)] at this
      rw [List.mapM_map, mapM_some (coeffs.take (d + 1)) _ fun i : Nat => polyAt d cs[k] (i : F)]
      · show Except.ok _ = _
        rw [reconstruct_poly h' (by simp; omega)]
        simp [hk']
      · intro i _
        simp [hk']

/-! ## Privacy -/

theorem horner_zipWith_smul {p : List V} {q : List F} (h : p.length = q.length) (δ : V) (x : F) :
    horner (List.zipWith (fun r m => r + m • δ) p q) x = horner p x + horner q x • δ := by
  induction p generalizing q with
  | nil => cases q with
    | nil => simp
    | cons b bs => simp at h
  | cons a as ih =>
    cases q with
    | nil => simp at h
    | cons b bs =>
      simp only [List.zipWith_cons_cons, horner_cons]
      rw [ih (by simpa using h)]
      simp only [smul_add, add_smul, mul_smul, smul_eq_mul]
      abel

/-- Coefficients `1, …, t` of a polynomial of degree at most `t` with value `1` at `0` that vanishes
at the points of the parties in `A`. -/
theorem exists_mask (hF : PointsDistinct F n) (A : Finset (Fin n)) {t : Nat} (hA : A.card ≤ t) :
    ∃ q : List F, q.length = t ∧ ∀ i ∈ A, horner (1 :: q) ((i.val + 1 : Nat) : F) = 0 := by
  classical
  have hz : ∀ j ∈ A.toList.map (fun i : Fin n => i.val + 1), ((j : Nat) : F) ≠ 0 := by
    simp only [List.mem_map]
    rintro _ ⟨i, -, rfl⟩ he
    have := hF (i.val + 1) 0 i.2 (by omega) (by simpa using he)
    omega
  obtain ⟨p, -, h1, h2, h3⟩ := zeroPoly_spec (F := F) hz
  cases p with
  | nil => simp at h1
  | cons c q =>
    have hc : c = 1 := by simpa [horner_zero] using h2
    subst hc
    refine ⟨q ++ List.replicate (t - A.card) 0, ?_, fun i hi => ?_⟩
    · simp only [List.length_cons, List.length_map, Finset.length_toList] at h1
      simp; omega
    · have := h3 (i.val + 1) (List.mem_map.mpr ⟨i, by simpa using hi, rfl⟩)
      rw [← List.cons_append]
      rw [show ∀ (l : List F) (m : Nat) (x : F), horner (l ++ List.replicate m 0) x = horner l x from ?_,
        this]
      intro l m x
      induction l with
      | nil => simpa using horner_replicate_zero m x
      | cons a as ih => simp [ih]

/-- Add `δ` times the mask to the block of coefficients of every secret. -/
def shiftBlocks (q : List F) : List V → List V → List V
  | [], tape => tape
  | δ :: δs, tape =>
    List.zipWith (fun r m => r + m • δ) (tape.take q.length) q ++
      shiftBlocks q δs (tape.drop q.length)

theorem shiftBlocks_length (q : List F) (δs tape : List V) :
    (shiftBlocks q δs tape).length = tape.length := by
  induction δs generalizing tape with
  | nil => rfl
  | cons δ δs ih => simp [shiftBlocks, ih]; omega

theorem zipWith_shift_inv (q : List F) (δ : V) (l : List V) (h : l.length = q.length) :
    List.zipWith (fun r m => r + m • (-δ)) (List.zipWith (fun r m => r + m • δ) l q) q = l := by
  induction q generalizing l with
  | nil => cases l with
    | nil => rfl
    | cons a as => simp at h
  | cons b bs ih => cases l with
    | nil => simp at h
    | cons a as =>
      simp only [List.zipWith_cons_cons, ih as (by simpa using h)]
      simp

theorem shiftBlocks_inv (q : List F) (δs tape : List V) (h : tape.length = q.length * δs.length) :
    shiftBlocks q (δs.map (- ·)) (shiftBlocks q δs tape) = tape := by
  induction δs generalizing tape with
  | nil => rfl
  | cons δ δs ih =>
    rw [List.length_cons, Nat.mul_succ] at h
    have h1 : (List.zipWith (fun r m => r + m • δ) (tape.take q.length) q).length = q.length := by
      simp; omega
    simp only [List.map_cons, shiftBlocks]
    rw [List.take_append_of_le_length (by rw [h1]), List.take_of_length_le (by rw [h1]),
      zipWith_shift_inv _ _ _ (by simp; omega), List.drop_append_of_le_length (by rw [h1]),
      List.drop_of_length_le (by rw [h1]), List.nil_append, ih _ (by simp; omega),
      List.take_append_drop]

theorem sampleN_tape [Inhabited V] (tape : List V) (d : Nat) (h : d ≤ tape.length) :
    letI := tapeSample V
    sampleN (α := V) tape d = (tape.take d, tape.drop d) := by
  induction d generalizing tape with
  | zero => rfl
  | succ d ih =>
    cases tape with
    | nil => simp at h
    | cons a as =>
      simp only [sampleN, tapeSample_cons]
      rw [ih as (by simpa using h)]
      rfl

theorem shareCols_shift [Inhabited V] {q : List F} {x : Nat} (hx : horner (1 :: q) ((x + 1 : Nat) : F) = 0)
    {vs ws : List V} (hvw : vs.length = ws.length) (tape : List V)
    (h : tape.length = q.length * vs.length) :
    letI := tapeSample V
    (shareCols F q.length ws (shiftBlocks q (List.zipWith (fun v w => w - v) vs ws) tape)).map (· x) =
      (shareCols F q.length vs tape).map (· x) := by
  induction vs generalizing ws tape with
  | nil => cases ws with
    | nil => rfl
    | cons w ws => simp at hvw
  | cons v vs ih => cases ws with
    | nil => simp at hvw
    | cons w ws =>
      rw [List.length_cons, Nat.mul_succ] at h
      have h1 : (List.zipWith (fun r m => r + m • (w - v)) (tape.take q.length) q).length = q.length := by
        simp; omega
      have h2 : shiftBlocks q (List.zipWith (fun v w => w - v) (v :: vs) (w :: ws)) tape =
        List.zipWith (fun r m => r + m • (w - v)) (tape.take q.length) q ++
          shiftBlocks q (List.zipWith (fun v w => w - v) vs ws) (tape.drop q.length) := rfl
      rw [h2]
      simp only [shareCols, List.map_cons]
      rw [sampleN_tape _ _ (by rw [List.length_append, h1]; omega), sampleN_tape tape _ (by omega)]
      rw [List.take_append_of_le_length (by rw [h1]), List.take_of_length_le (by rw [h1]),
        List.drop_append_of_le_length (by rw [h1]), List.drop_of_length_le (by rw [h1]),
        List.nil_append, ih (by simpa using hvw) _ (by simp; omega)]
      congr 1
      have h3 := horner_zipWith_smul (p := v :: tape.take q.length) (q := (1 : F) :: q) (by simp; omega)
        (w - v) ((x + 1 : Nat) : F)
      rw [hx, zero_smul, add_zero, List.zipWith_cons_cons, one_smul,
        add_sub_cancel] at h3
      exact h3

/-- A polynomial is determined by its values at more points than its degree. -/
theorem polyAt_eq_sum {pts : Finset Nat} (hP : Set.InjOn (Nat.cast : Nat → F) pts) {d : Nat}
    (hd : d < pts.card) (c : Nat → V) (x : F) :
    polyAt d c x = ∑ i ∈ pts, (Lagrange.basis pts (Nat.cast : Nat → F) i).eval x •
      polyAt d c (i : F) := by
  have key : ∀ m, m ≤ d → x ^ m =
      ∑ i ∈ pts, (Lagrange.basis pts (Nat.cast : Nat → F) i).eval x * (i : F) ^ m := by
    intro m hm
    have := Lagrange.eq_interpolate (f := (Polynomial.X ^ m : Polynomial F)) hP (by
      rw [Polynomial.degree_X_pow]
      exact_mod_cast (by omega : m < pts.card))
    have h2 := congrArg (Polynomial.eval x) this
    simp only [Lagrange.interpolate_apply, Polynomial.eval_pow, Polynomial.eval_X,
      Polynomial.eval_finsetSum, Polynomial.eval_mul, Polynomial.eval_C] at h2
    rw [h2]
    exact Finset.sum_congr rfl fun i _ => mul_comm _ _
  simp only [polyAt, Finset.smul_sum, _root_.smul_smul]
  rw [Finset.sum_comm]
  refine Finset.sum_congr rfl fun m hm => ?_
  rw [← Finset.sum_smul, ← key m (by have := Finset.mem_range.mp hm; omega)]

/-- Two sharings of one value with `d` common shares are the same. -/
theorem isShamir_unique (hF : PointsDistinct F n) {d : Nat} {s s' : Fin n → V} {v : V}
    (h : IsShamir F d s v) (h' : IsShamir F d s' v) {A : Finset (Fin n)} (hA : d ≤ A.card)
    (he : ∀ i ∈ A, s i = s' i) : s = s' := by
  obtain ⟨c, hc, hs⟩ := h
  obtain ⟨c', hc', hs'⟩ := h'
  have hn : 0 ∉ A.image fun i => i.val + 1 := by simp
  have hP : Set.InjOn (Nat.cast : Nat → F) (insert 0 (A.image fun i => i.val + 1) : Finset Nat) := by
    have : ∀ i ∈ (insert 0 (A.image fun i => i.val + 1) : Finset Nat), i ≤ n := by
      simp only [Finset.mem_insert, Finset.mem_image]
      rintro _ (rfl | ⟨i, -, rfl⟩)
      · omega
      · exact i.2
    exact fun i hi j hj e => hF i j (this i hi) (this j hj) e
  have hcard : d < (insert 0 (A.image fun i => i.val + 1) : Finset Nat).card := by
    rw [Finset.card_insert_of_notMem hn, Finset.card_image_of_injective _ (fun a b hab => by
      exact Fin.ext (by simpa using hab))]
    omega
  funext i
  rw [hs, hs', polyAt_eq_sum hP hcard c, polyAt_eq_sum hP hcard c']
  refine Finset.sum_congr rfl fun k hk => ?_
  congr 1
  simp only [Finset.mem_insert, Finset.mem_image] at hk
  obtain rfl | ⟨j, hj, rfl⟩ := hk
  · rw [Nat.cast_zero, polyAt_zero, polyAt_zero, hc, hc']
  · rw [← hs, ← hs', he j hj]

end Verif.Shamir
