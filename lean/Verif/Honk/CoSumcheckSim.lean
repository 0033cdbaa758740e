import Verif.Honk.CoRelationsValues
import Verif.Honk.ProverRun

/-!
# Lemmas: the accumulators of the collaborative sumcheck
-/

namespace Verif.Honk

open Plonk (Linear)

variable {ι S M F A : Type} [DecidableEq ι] [Field F] [DecidableEq F] [Zero A] [Add A] [Sub A] [Neg A] [SMul F A]

/-! ## Shares of univariates -/

section extend

variable {P : (ι → A) → F → Prop} {addPub : ι → A → F → A} {promote : ι → F → A} (h : Linear P addPub promote)

include h

omit [DecidableEq ι] [DecidableEq F] in
theorem coExtend2_rel {p0 p1 : ι → A} {v0 v1 : F} (h0 : P p0 v0) (h1 : P p1 v1) (k : Nat) :
    P (fun i => coExtend2 (p0 i) (p1 i) k) (Univariate.extend2 v0 v1 k) := by
  induction k with
  | zero => exact h1
  | succ k ih => exact h.add _ _ _ _ ih (h.sub _ _ _ _ h1 h0)

omit [DecidableEq ι] [DecidableEq F] in
theorem coExtend3_rel {p0 p1 p2 : ι → A} {v0 v1 v2 : F} (h0 : P p0 v0) (h1 : P p1 v1) (h2 : P p2 v2) (k : Nat) :
    P (fun i => (coExtend3 F (p0 i) (p1 i) (p2 i) k).1) (Univariate.extend3 v0 v1 v2 k).1 ∧
      P (fun i => (coExtend3 F (p0 i) (p1 i) (p2 i) k).2) (Univariate.extend3 v0 v1 v2 k).2 := by
  have ha : P (fun i => (2 : F)⁻¹ • (p0 i + p2 i) - p1 i) ((v2 + v0) * (2 : F)⁻¹ - v1) := by
    rw [show (v2 + v0) * (2 : F)⁻¹ - v1 = (2 : F)⁻¹ • (v0 + v2) - v1 by rw [smul_eq_mul]; ring]
    exact h.sub _ _ _ _ (h.smul _ _ _ (h.add _ _ _ _ h0 h2)) h1
  have ha2 := h.add _ _ _ _ ha ha
  induction k with
  | zero =>
    refine ⟨h2, h.add _ _ _ _ (h.add _ _ _ _ (h.add _ _ _ _ ha2 ha2) ha) ?_⟩
    rw [show v1 - ((v2 + v0) * (2 : F)⁻¹ - v1) - v0 = v1 - v0 - ((v2 + v0) * (2 : F)⁻¹ - v1) by ring]
    exact h.sub _ _ _ _ (h.sub _ _ _ _ h1 h0) ha
  | succ k ih => exact ⟨h.add _ _ _ _ ih.1 ih.2, h.add _ _ _ _ ih.2 ha2⟩

omit [DecidableEq ι] [DecidableEq F] in
theorem foldl_rel {α : Type} (l : List α) {f : ι → α → A} {g : α → F} (hf : ∀ a ∈ l, P (fun i => f i a) (g a)) {x : ι → A} {v : F}
    (hx : P x v) : P (fun i => l.foldl (fun acc a => acc + f i a) (x i)) (l.foldl (fun acc a => acc + g a) v) := by
  induction l generalizing x v with
  | nil => exact hx
  | cons a l ih => exact ih (fun b hb => hf b (by simp [hb])) (h.add _ _ _ _ hx (hf a (by simp)))

omit [DecidableEq ι] [DecidableEq F] in
theorem coBarycentric_rel {m : Nat} {poly : ι → Univariate A m} {v : Univariate F m} (hp : ∀ j, P (fun i => poly i j) (v j)) (x : F) :
    P (fun i => coBarycentric (poly i) x) (Univariate.barycentric v x) := by
  have e : Univariate.barycentric v x = Univariate.fullNumerator m x • (List.finRange m).foldl
      (fun (acc : F) (j : Fin m) => acc + (Univariate.lagrangeDenominator m j * (x - ((j : Nat) : F)))⁻¹ • v j) 0 := by
    have hs : ∀ (l : List (Fin m)) (g : Fin m → F) (a : F), l.foldl (fun acc j => acc + g j) a = a + (l.map g).sum := by
      intro l g
      induction l with
      | nil => simp
      | cons b l ih => intro a; rw [List.foldl_cons, ih, List.map_cons, List.sum_cons, add_assoc]
    rw [hs, Univariate.barycentric, ← Fin.sum_univ_def, smul_eq_mul, zero_add, mul_comm]
    congr 1
    exact Finset.sum_congr rfl fun j _ => by rw [smul_eq_mul, mul_comm]
  rw [e]
  exact h.smul _ _ _ (foldl_rel h _ (fun j _ => h.smul _ _ _ (hp j)) h.zero)

omit [DecidableEq ι] [DecidableEq F] in
theorem coExtendFrom_rel {m : Nat} (hm : m ≠ 4) (n : Nat) {poly : ι → Univariate A m} {v : Univariate F m}
    (hp : ∀ j, P (fun i => poly i j) (v j)) (j : Fin n) :
    P (fun i => coExtendFrom F n (poly i) j) (Univariate.extendFrom n v j) := by
  simp only [coExtendFrom, Univariate.extendFrom]
  by_cases hj : j.1 < m
  · simp only [dif_pos hj]
    exact hp _
  · simp only [dif_neg hj]
    match m, poly, v, hp, hm with
    | 0, _, _, hp, _ => exact coBarycentric_rel h hp _
    | 1, _, _, hp, _ => exact coBarycentric_rel h hp _
    | 2, _, _, hp, _ => exact coExtend2_rel h (hp 0) (hp 1) _
    | 3, _, _, hp, _ => exact (coExtend3_rel h (hp 0) (hp 1) (hp 2) _).1
    | k + 5, _, _, hp, _ => exact coBarycentric_rel h hp _

end extend

omit [DecidableEq ι] [Field F] [DecidableEq F] [Zero A] [Add A] [Sub A] [Neg A] [SMul F A] in
theorem cols_ofFn {P : (ι → A) → F → Prop} {n : Nat} {f : ι → Fin n → A} {g : Fin n → F} (h : ∀ j, P (fun i => f i j) (g j)) :
    Cols P (fun i => List.ofFn (f i)) (List.ofFn g) := by
  refine ⟨List.ofFn fun j i => f i j, ?_, ?_⟩
  · funext i
    rw [List.map_ofFn]
    rfl
  · rw [List.ofFn_eq_map, List.ofFn_eq_map, List.forall₂_map_left_iff, List.forall₂_map_right_iff]
    exact List.forall₂_same.2 fun j _ => h j

/-! ## Edges -/

/-- Shares of an edge. -/
def PEdge (P : (ι → A) → F → Prop) (x : ι → CoEdge F A) (y : CoEdge F F) : Prop :=
  (∀ i, (x i).q = y.q) ∧ (∀ i, (x i).s = y.s) ∧ ∀ c : Col, c.shared = true → ∀ j, P (fun i => (x i).e c j) (y.e c j)

/-- A point of an edge. -/
def CoEdge.pt (x : CoEdge F A) (j : Fin 7) : Point F A := ⟨fun c => x.q c j, fun c => x.e c j, x.s⟩

omit [DecidableEq ι] [Field F] [DecidableEq F] [Zero A] [Add A] [Sub A] [Neg A] [SMul F A] in
theorem points_rel {P : (ι → A) → F → Prop} {x : ι → CoEdge F A} {y : CoEdge F F} (h : PEdge P x y) :
    Cols (PPt P) (fun i => (x i).points) y.points := by
  refine ⟨(List.finRange 7).map fun j i => (x i).pt j, ?_, ?_⟩
  · funext i
    simp [CoEdge.points, CoEdge.pt]
  · rw [CoEdge.points, List.forall₂_map_left_iff, List.forall₂_map_right_iff]
    refine List.forall₂_same.2 fun j _ => ⟨fun i => ?_, h.2.1, fun c hc => h.2.2 c hc j⟩
    simp [CoEdge.pt, h.1 i]

omit [Zero A] [Add A] [Sub A] [Neg A] [SMul F A] in
theorem batch_eq (edges : List (CoEdge F A)) (r : Rel) :
    batch edges r = edges.flatMap fun x => if r.coSkip x.q then [] else x.points := by
  rw [batch]
  induction edges with
  | nil => rfl
  | cons x l ih =>
    rw [List.flatMap_cons, ← ih, List.filter_cons]
    by_cases hx : r.coSkip x.q = true <;> simp [hx]

omit [DecidableEq ι] [Zero A] [Add A] [Sub A] [Neg A] [SMul F A] in
theorem batch_rel {P : (ι → A) → F → Prop} {edges : ι → List (CoEdge F A)} {ys : List (CoEdge F F)} (h : Cols (PEdge P) edges ys) (r : Rel) :
    Cols (PPt P) (fun i => batch (edges i) r) (batch ys r) := by
  simp only [batch_eq]
  refine cols_flatMap h fun x y hxy => ?_
  by_cases hy : r.coSkip y.q = true
  · simp only [hxy.1, hy, if_true]
    exact Cols.nil
  · simp only [hxy.1, hy]
    exact points_rel hxy

/-! ## `fold_accumulator!` -/

omit [DecidableEq ι] [Field F] [DecidableEq F] [Zero A] [Sub A] [Neg A] [SMul F A] in
theorem foldAcc_rel [Add F] {P : (ι → A) → F → Prop} (hadd : ∀ x y v w, P x v → P y w → P (fun i => x i + y i) (v + w)) {n : Nat}
    {acc : ι → Univariate A n} {V : Univariate F n} {s : ι → List A} {vs : List F} (hs : Cols P s vs) (j : Fin n)
    (ha : P (fun i => acc i j) (V j)) : P (fun i => foldAcc (acc i) (s i) j) (foldAcc V vs j) := by
  obtain ⟨l, rfl, hl⟩ := hs
  simp only [foldAcc]
  generalize hk : 0 = k
  clear hk
  generalize hx : (fun i => acc i j) = x at ha
  have hx' : ∀ i, acc i j = x i := fun i => congrFun hx i
  simp only [hx']
  clear hx hx'
  generalize V j = v at ha
  induction hl generalizing k x v with
  | nil => exact ha
  | @cons a b l vs hab _ ih =>
    simp only [List.map_cons, List.zipIdx_cons, List.foldl_cons]
    by_cases hj : k % 7 = j.1
    · simp only [hj, if_true]
      exact ih _ _ _ (hadd _ _ _ _ ha hab)
    · simp only [hj, if_false]
      exact ih _ _ _ ha

omit [DecidableEq F] in
theorem foldAcc_points {Y : Type} (L : List Y) (t : Y → Fin 7 → F) {n : Nat} (hn : n ≤ 7) (V : Univariate F n) (j : Fin n) :
    foldAcc V (L.flatMap fun y => (List.finRange 7).map (t y)) j = V j + (L.map fun y => t y (j.castLE hn)).sum := by
  simp only [foldAcc]
  have main : ∀ (L : List Y) (k : Nat) (v : F), k % 7 = 0 → ((L.flatMap fun y => (List.finRange 7).map (t y)).zipIdx k).foldl
      (fun a x => if x.2 % 7 = j.1 then a + x.1 else a) v = v + (L.map fun y => t y (j.castLE hn)).sum := by
    intro L
    induction L with
    | nil => simp
    | cons y L ih =>
      intro k v hk
      rw [List.flatMap_cons, List.zipIdx_append, List.foldl_append]
      rw [ih _ _ (by simp; omega)]
      rw [List.map_cons, List.sum_cons, ← add_assoc]
      congr 1
      obtain ⟨m, rfl⟩ : ∃ m, k = 7 * m := ⟨k / 7, by omega⟩
      have hj : j.1 < 7 := by omega
      have e : List.finRange 7 = [0, 1, 2, 3, 4, 5, 6] := by decide
      rw [e]
      simp only [List.map_cons, List.map_nil, List.zipIdx_cons, List.zipIdx_nil, List.foldl_cons, List.foldl_nil]
      have e0 : 7 * m % 7 = 0 := by omega
      have e1 : (7 * m + 1) % 7 = 1 := by omega
      have e2 : (7 * m + 1 + 1) % 7 = 2 := by omega
      have e3 : (7 * m + 1 + 1 + 1) % 7 = 3 := by omega
      have e4 : (7 * m + 1 + 1 + 1 + 1) % 7 = 4 := by omega
      have e5 : (7 * m + 1 + 1 + 1 + 1 + 1) % 7 = 5 := by omega
      have e6 : (7 * m + 1 + 1 + 1 + 1 + 1 + 1) % 7 = 6 := by omega
      rw [e0, e1, e2, e3, e4, e5, e6]
      have hc : j.castLE hn = (⟨j.1, hj⟩ : Fin 7) := rfl
      rw [hc]
      generalize j.1 = q at hj
      interval_cases q <;> simp
  exact main L 0 _ rfl

/-! ## One relation -/

/-- The sum of what the edges add. -/
def edgeSum (p : Params F) (ys : List (CoEdge F F)) (s : Subrel) (j : Fin s.len) : F :=
  (ys.map fun y => target p (y.pt (j.castLE s.len_le)) s).sum

theorem target_skip (p : Params F) (y : CoEdge F F) (s : Subrel) (j : Fin 7) (h : s.rel.coSkip y.q = true) : target p (y.pt j) s = 0 := by
  have sel : ∀ c : Col, c.shared = false → (y.q c).isZero = true → (y.pt j).row c = 0 := by
    intro c hc hz
    simp only [Univariate.isZero, decide_eq_true_eq] at hz
    simp [Point.row, CoEdge.pt, hc, hz j]
  refine mul_eq_zero_of_right _ ?_
  cases s
  case perm0 => exact absurd h (by simp [Subrel.rel, Rel.coSkip])
  case perm1 => exact absurd h (by simp [Subrel.rel, Rel.coSkip])
  case lookup0 => exact absurd h (by simp [Subrel.rel, Rel.coSkip])
  case lookup1 => exact absurd h (by simp [Subrel.rel, Rel.coSkip])
  case lookup2 => exact absurd h (by simp [Subrel.rel, Rel.coSkip])
  all_goals
    have := sel _ rfl h
    simp [Subrel.value, this]

theorem foldAcc_batch (p : Params F) (ys : List (CoEdge F F)) (s : Subrel) (V : Univariate F s.len) (j : Fin s.len) :
    foldAcc V ((batch ys s.rel).map fun y => target p y s) j = V j + edgeSum p ys s j := by
  have e : (batch ys s.rel).map (fun y => target p y s)
      = (ys.filter fun x => !s.rel.coSkip x.q).flatMap fun y => (List.finRange 7).map fun j => target p (y.pt j) s := by
    rw [batch, List.map_flatMap]
    simp [CoEdge.points, CoEdge.pt, Function.comp_def]
  rw [e, foldAcc_points _ _ s.len_le, edgeSum]
  clear e
  congr 1
  induction ys with
  | nil => rfl
  | cons y ys ih =>
    rw [List.filter_cons, List.map_cons, List.sum_cons]
    by_cases hy : s.rel.coSkip y.q = true
    · simp only [hy, Bool.not_true, Bool.false_eq_true, if_false]
      rw [target_skip p y s _ hy, zero_add, ← ih]
    · simp only [hy, Bool.not_false, if_true, List.map_cons, List.sum_cons]
      rw [← ih]

/-- Shares of the accumulators. -/
def AccRel (P : (ι → A) → F → Prop) (H : (ι → F) → F → Prop) (a : ι → HalfAcc F A) (V : Acc F) : Prop :=
  (∀ j, H (fun i => (a i).half j) (V .arith0 j)) ∧ ∀ s, s ≠ .arith0 → ∀ j, P (fun i => (a i).acc s j) (V s j)

namespace SumSim

variable {I : (ι → S) → Prop} {d : ι → SumDriver (MPC ι S M Err) F A} {P : (ι → A) → F → Prop} {H : (ι → F) → F → Prop}
  (h : SumSim I d P H) (p : Params F)
include h

theorem accumulateOne {edges : ι → List (CoEdge F A)} {ys : List (CoEdge F F)} (he : Cols (PEdge P) edges ys) {a : ι → HalfAcc F A} {V : Acc F}
    (ha : AccRel P H a V) (r : Rel) :
    IS I (fun i => Honk.accumulateOne (d i) p (edges i) (a i) r) fun a' =>
      AccRel P H a' fun s j => if s.rel = r then V s j + edgeSum p ys s j else V s j := by
  have hb := batch_rel he r
  have hl : ∀ i, (batch (edges i) r).isEmpty = (batch ys r).isEmpty := fun i => by
    have := hb.length i
    rw [Bool.eq_iff_iff, List.isEmpty_iff_length_eq_zero, List.isEmpty_iff_length_eq_zero, this]
  by_cases hy : (batch ys r).isEmpty = true
  · have e : (fun i => Honk.accumulateOne (d i) p (edges i) (a i) r) = fun i => pure (a i) := by
      funext i
      simp only [Honk.accumulateOne, hl, hy, if_true]
    rw [e]
    refine IS.pure ?_
    have hV : (fun s j => if s.rel = r then V s j + edgeSum p ys s j else V s j : Acc F) = V := by
      funext s j
      split_ifs with hs
      · rw [← foldAcc_batch, hs, List.isEmpty_iff.1 hy]
        rfl
      · rfl
    rw [hV]
    exact ha
  · have hval : ∀ {z : ι → List (Subrel → A)}, Cols (PRes P r) z ((batch ys r).map (target p)) → ∀ s, s ≠ .arith0 → s.rel = r →
        Cols P (fun i => (z i).map (· s)) ((batch ys s.rel).map fun y => target p y s) := by
      intro z hz s h0 hs
      have := hz.map (f := fun _ x => x s) (g := fun t => t s) (Q := P) fun x t hxt => hxt s h0 hs
      rw [List.map_map] at this
      rw [hs]
      exact this
    by_cases hr : r = .arith
    · subst hr
      have e : (fun i => Honk.accumulateOne (d i) p (edges i) (a i) .arith) = fun i => (coArith0 (d i) (batch (edges i) .arith)) >>= fun half =>
          (coRelation (d i) p (batch (edges i) .arith) .arith) >>= fun res =>
          pure ⟨fun j => (a i).half j + foldAcc (fun _ => 0) half j,
            fun s j => if s = .arith1 then (a i).acc s j + foldAcc (fun _ => 0) (res.map (· s)) j else (a i).acc s j⟩ := by
        funext i
        simp only [Honk.accumulateOne, hl, hy]
        rfl
      rw [e]
      refine (h.arith0 p hb).bind fun half hh => (h.relation p hb .arith).bind fun res hres => IS.pure ⟨fun j => ?_, fun s hs j => ?_⟩
      · have := foldAcc_rel (acc := fun _ _ => 0) (V := fun _ => 0) (fun x y v w => h.hadd) hh j h.hzero
        have e2 := foldAcc_batch p ys .arith0 (fun _ => 0) j
        rw [zero_add] at e2
        have e3 : H (fun i => foldAcc (fun _ => 0) (half i) j) (edgeSum p ys .arith0 j) := e2 ▸ this
        exact h.hadd (ha.1 j) e3
      · by_cases h1 : s = .arith1
        · subst h1
          simp only [if_true, Subrel.rel]
          have := foldAcc_rel (acc := fun _ _ => 0) (V := fun _ => 0) h.linear.add (hval hres .arith1 hs rfl) j h.linear.zero
          rw [foldAcc_batch, zero_add] at this
          exact h.linear.add _ _ _ _ (ha.2 _ hs j) this
        · have hsr : s.rel ≠ .arith := by cases s <;> simp_all [Subrel.rel]
          simp only [h1, hsr, if_false]
          exact ha.2 s hs j
    · have e : (fun i => Honk.accumulateOne (d i) p (edges i) (a i) r) = fun i => (coRelation (d i) p (batch (edges i) r) r) >>= fun res =>
          pure ⟨(a i).half, fun s j => if s.rel = r then foldAcc ((a i).acc s) (res.map (· s)) j else (a i).acc s j⟩ := by
        funext i
        simp only [Honk.accumulateOne, hl, hy]
        cases r <;> first | exact absurd rfl hr | rfl
      rw [e]
      refine (h.relation p hb r).bind fun res hres => IS.pure ⟨fun j => ?_, fun s hs j => ?_⟩
      · have : Subrel.arith0.rel ≠ r := fun e => hr e.symm
        simp only [this, if_false]
        exact ha.1 j
      · by_cases hsr : s.rel = r
        · simp only [hsr, if_true]
          have := foldAcc_rel h.linear.add (hval hres s hs hsr) j (ha.2 s hs j)
          rw [foldAcc_batch] at this
          exact this
        · simp only [hsr, if_false]
          exact ha.2 s hs j

theorem accumulateBatch {edges : ι → List (CoEdge F A)} {ys : List (CoEdge F F)} (he : Cols (PEdge P) edges ys) {a : ι → HalfAcc F A} {V : Acc F}
    (ha : AccRel P H a V) :
    IS I (fun i => Honk.accumulateBatch (d i) p (a i) (edges i)) fun a' => AccRel P H a' fun s j => V s j + edgeSum p ys s j := by
  have main : ∀ (l : List Rel) {a : ι → HalfAcc F A} {V : Acc F}, AccRel P H a V →
      IS I (fun i => l.foldlM (Honk.accumulateOne (d i) p (edges i)) (a i)) fun a' =>
        AccRel P H a' (l.foldl (fun V r => fun s j => if s.rel = r then V s j + edgeSum p ys s j else V s j) V) := by
    intro l
    induction l with
    | nil => exact fun ha => IS.pure ha
    | cons r l ih =>
      intro a V ha
      simp only [List.foldlM_cons]
      exact (h.accumulateOne p he ha r).bind fun a' ha' => ih ha'
  refine (main _ ha).mono fun a' ha' => ?_
  have e : ([Rel.arith, .perm, .delta, .elliptic, .memory, .nnf, .lookup, .external, .internal].foldl
      (fun (V : Acc F) r => fun s j => if s.rel = r then V s j + edgeSum p ys s j else V s j) V) = fun s j => V s j + edgeSum p ys s j := by
    funext s j
    cases s <;> simp [Subrel.rel]
  rw [e] at ha'
  exact ha'

theorem reshareAcc {a : ι → HalfAcc F A} {V : Acc F} (ha : AccRel P H a V) :
    IS I (fun i => Honk.reshareAcc (d i) (a i)) fun a' => ∀ s j, P (fun i => a' i s j) (V s j) := by
  have hc : Cols H (fun i => List.ofFn (a i).half) (List.ofFn (V .arith0)) := cols_ofFn ha.1
  refine (h.reshare hc).bind fun r hr => ?_
  have hl : ∀ i, (r i).length = 6 := fun i => (hr.length i).trans (List.length_ofFn)
  simp only [hl, if_true]
  refine IS.pure fun s j => ?_
  by_cases hs : s = .arith0
  · subst hs
    simp only [if_true]
    have := Groth16.Cols.getD hr h.linear.zero j.1
    have e : (List.ofFn (V .arith0)).getD j.1 0 = V .arith0 j := by
      simp [List.getD]
    rwa [e] at this
  · simp only [hs, if_false]
    exact ha.2 s hs j

end SumSim

end Verif.Honk
