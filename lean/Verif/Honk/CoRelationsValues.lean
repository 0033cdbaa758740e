import Verif.Honk.CoRelationsSim

/-!
# Lemmas: what the relations on shares compute
-/

namespace Verif.Honk

open Plonk (Linear)

variable {ι S M F A : Type} [DecidableEq ι] [Field F] [DecidableEq F] [Zero A] [Add A] [Sub A] [Neg A] [SMul F A]

/-- Shares of a point. -/
def PPt (P : (ι → A) → F → Prop) (x : ι → Point F A) (y : Point F F) : Prop :=
  (∀ i, (x i).q = y.q) ∧ (∀ i, (x i).s = y.s) ∧ ∀ c : Col, c.shared = true → P (fun i => (x i).e c) (y.e c)

/-- The columns of a point in the clear. -/
def Point.row (y : Point F F) : Col → F := fun c => if c.shared then y.e c else y.q c

/-- What a point adds to an accumulator. -/
def target (p : Params F) (y : Point F F) (s : Subrel) : F := (if s.independent then y.s else 1) * s.value F p y.row

/-- Shares of the contributions of one relation. -/
def PRes (P : (ι → A) → F → Prop) (r : Rel) (x : ι → Subrel → A) (t : Subrel → F) : Prop :=
  ∀ s : Subrel, s ≠ .arith0 → s.rel = r → P (fun i => x i s) (t s)

set_option hygiene false in
/-- Linear expressions in shares. -/
macro "lin" : tactic => `(tactic|
  repeat' first
    | exact he _ rfl
    | exact hm _
    | exact hm2 _
    | exact hm3 _
    | refine h.linear.add _ _ _ _ ?_ ?_
    | refine h.linear.sub _ _ _ _ ?_ ?_
    | refine h.linear.neg _ _ ?_
    | refine h.linear.addPub _ _ _ ?_
    | refine h.linear.smul _ _ _ ?_)

set_option hygiene false in
/-- The factors of a multiplication of points. -/
macro "factors1" : tactic => `(tactic|
  (repeat' first | exact Cols.nil | refine Cols.cons ?_ ?_) <;>
  (rintro x y ⟨hq, hs, he⟩; constructor <;> (simp only [hq, hs]; lin)))

set_option hygiene false in
/-- The same for points with one list of products. -/
macro "factors2" : tactic => `(tactic|
  (repeat' first | exact Cols.nil | refine Cols.cons ?_ ?_) <;>
  (rintro x y ⟨⟨hq, hs, he⟩, hm⟩; constructor <;> (simp only [hq, hs]; lin)))

set_option hygiene false in
/-- The same for points with two lists of products. -/
macro "factors3" : tactic => `(tactic|
  (repeat' first | exact Cols.nil | refine Cols.cons ?_ ?_) <;>
  (rintro x y ⟨⟨⟨hq, hs, he⟩, hm⟩, hm2⟩; constructor <;> (simp only [hq, hs]; lin)))

/-- The value of a contribution. -/
macro "values" "[" ls:Lean.Parser.Tactic.simpLemma,* "]" : tactic => `(tactic|
  (simp only [products, List.map_cons, List.map_nil, List.getD_cons_zero, List.getD_cons_succ, Function.comp, target, Subrel.independent,
    Subrel.value, Point.row, Col.shared, if_true, Bool.false_eq_true, if_false, smul_eq_mul, readTerm, writeTerm, record, inRange, $ls,*] <;>
   ring))

namespace SumSim

variable {I : (ι → S) → Prop} {d : ι → SumDriver (MPC ι S M Err) F A} {P : (ι → A) → F → Prop} {H : (ι → F) → F → Prop}

/-- The contributions of the points. -/
theorem results {X Y : Type} {R : (ι → X) → Y → Prop} {r : Rel} {p : Params F} {xs : ι → List X} {ys : List (Point F F)} {e : Point F F → Y}
    (hx : Cols R xs (ys.map e)) {f : ι → X → Subrel → A} {g : Y → Subrel → F} (hf : ∀ x y, R x y → PRes P r (fun i => f i (x i)) (g y))
    (hv : ∀ y s, s ≠ .arith0 → s.rel = r → g (e y) s = target p y s) :
    Cols (PRes P r) (fun i => (xs i).map (f i)) (ys.map (target p)) := by
  obtain ⟨l, rfl, hl⟩ := hx
  refine ⟨l.map fun x i => f i (x i), by funext i; simp, ?_⟩
  rw [List.forall₂_map_right_iff] at hl ⊢
  rw [List.forall₂_map_left_iff]
  refine hl.imp fun x y hxy s h0 hs => ?_
  rw [← hv y s h0 hs]
  exact hf x (e y) hxy s h0 hs

variable (h : SumSim I d P H) (p : Params F) {b : ι → List (Point F A)} {ys : List (Point F F)}
include h

theorem arith1 (hb : Cols (PPt P) b ys) :
    IS I (fun i => coRelation (d i) p (b i) .arith) fun r => Cols (PRes P .arith) r (ys.map (target p)) := by
  refine IS.pure ?_
  refine results (e := id) (by simpa using hb) (g := arithResult (· + ·)) ?_ ?_
  · rintro x y ⟨hq, hs, he⟩ s h0 hr
    cases s <;> simp [Subrel.rel] at hr h0
    simp only [arithResult, hq, hs]
    lin
  · intro y s h0 hr
    cases s <;> simp [Subrel.rel] at hr h0
    values [arithResult, id]

theorem perm (hb : Cols (PPt P) b ys) :
    IS I (fun i => coRelation (d i) p (b i) .perm) fun r => Cols (PRes P .perm) r (ys.map (target p)) := by
  refine (h.mulRound hb (gs := permFactors1 (· + ·) p) ?_).bind fun x1 h1 => (h.mulRound h1 (gs := permFactors2) ?_).bind fun x2 h2 =>
    (h.mulRound h2 (gs := permFactors3 (· + ·) p) ?_).bind fun x3 h3 => IS.pure ?_
  · unfold permFactors1; factors1
  · unfold permFactors2; factors2
  · unfold permFactors3; factors3
  · rw [List.map_map, List.map_map] at h3
    refine results h3 (g := permResult) ?_ ?_
    · rintro x y ⟨⟨⟨⟨hq, hs, he⟩, hm⟩, hm2⟩, hm3⟩ s h0 hr
      cases s <;> simp [Subrel.rel] at hr <;> simp only [permResult, hq, hs] <;> lin
    · intro y s h0 hr
      cases s <;> simp [Subrel.rel] at hr <;> values [permResult, permFactors1, permFactors2, permFactors3]

theorem lookup (hb : Cols (PPt P) b ys) :
    IS I (fun i => coRelation (d i) p (b i) .lookup) fun r => Cols (PRes P .lookup) r (ys.map (target p)) := by
  refine (h.mulRound hb (gs := lookupFactors1 (· + ·) p) ?_).bind fun x1 h1 => (h.mulRound h1 (gs := lookupFactors2) ?_).bind fun x2 h2 => IS.pure ?_
  · unfold lookupFactors1; (try simp only [coReadTerm]); factors1
  · unfold lookupFactors2; (try simp only [coReadTerm]); factors2
  · rw [List.map_map] at h2
    refine results h2 (g := lookupResult (· + ·) p) ?_ ?_
    · rintro x y ⟨⟨⟨hq, hs, he⟩, hm⟩, hm2⟩ s h0 hr
      cases s <;> simp [Subrel.rel] at hr <;> simp only [lookupResult, coInverseExists, coWriteTerm, coReadTerm, hq, hs] <;> lin
    · intro y s h0 hr
      cases s <;> simp [Subrel.rel] at hr <;> values [lookupResult, coInverseExists, coWriteTerm, coReadTerm, lookupFactors1, lookupFactors2]

theorem delta (hb : Cols (PPt P) b ys) :
    IS I (fun i => coRelation (d i) p (b i) .delta) fun r => Cols (PRes P .delta) r (ys.map (target p)) := by
  refine (h.mulRound hb (gs := deltaFactors1 (· + ·)) ?_).bind fun x1 h1 => (h.mulRound h1 (gs := deltaFactors2 (· + ·)) ?_).bind fun x2 h2 => IS.pure ?_
  · unfold deltaFactors1; factors1
  · unfold deltaFactors2; factors2
  · rw [List.map_map] at h2
    refine results h2 (g := deltaResult) ?_ ?_
    · rintro x y ⟨⟨⟨hq, hs, he⟩, hm⟩, hm2⟩ s h0 hr
      cases s <;> simp [Subrel.rel] at hr <;> simp only [deltaResult, hq, hs] <;> lin
    · intro y s h0 hr
      cases s <;> simp [Subrel.rel] at hr <;> values [deltaResult, deltaFactors1, deltaFactors2]

theorem elliptic (hb : Cols (PPt P) b ys) :
    IS I (fun i => coRelation (d i) p (b i) .elliptic) fun r => Cols (PRes P .elliptic) r (ys.map (target p)) := by
  refine (h.mulRound hb (gs := ellipticFactors1) ?_).bind fun x1 h1 => (h.mulRound h1 (gs := ellipticFactors2 (· + ·) p) ?_).bind fun x2 h2 => IS.pure ?_
  · unfold ellipticFactors1; factors1
  · unfold ellipticFactors2; factors2
  · rw [List.map_map] at h2
    refine results h2 (g := ellipticResult) ?_ ?_
    · rintro x y ⟨⟨⟨hq, hs, he⟩, hm⟩, hm2⟩ s h0 hr
      cases s <;> simp [Subrel.rel] at hr <;> simp only [ellipticResult, hq, hs] <;> lin
    · intro y s h0 hr
      cases s <;> simp [Subrel.rel] at hr <;> values [ellipticResult, ellipticFactors1, ellipticFactors2]

theorem memory (hb : Cols (PPt P) b ys) :
    IS I (fun i => coRelation (d i) p (b i) .memory) fun r => Cols (PRes P .memory) r (ys.map (target p)) := by
  refine (h.mulRound hb (gs := memoryFactors1 (· + ·) p) ?_).bind fun x1 h1 => (h.mulRound h1 (gs := memoryFactors2 (· + ·) p) ?_).bind fun x2 h2 => IS.pure ?_
  · unfold memoryFactors1; (try simp only [partialRecord, negNextAccess]); factors1
  · unfold memoryFactors2; (try simp only [partialRecord, negNextAccess]); factors2
  · rw [List.map_map] at h2
    refine results h2 (g := memoryResult (· + ·) p) ?_ ?_
    · rintro x y ⟨⟨⟨hq, hs, he⟩, hm⟩, hm2⟩ s h0 hr
      cases s <;> simp [Subrel.rel] at hr <;> simp only [memoryResult, partialRecord, negNextAccess, hq, hs] <;> lin
    · intro y s h0 hr
      cases s <;> simp [Subrel.rel] at hr <;> values [memoryResult, partialRecord, negNextAccess, memoryFactors1, memoryFactors2]

theorem nnf (hb : Cols (PPt P) b ys) :
    IS I (fun i => coRelation (d i) p (b i) .nnf) fun r => Cols (PRes P .nnf) r (ys.map (target p)) := by
  refine (h.mulRound hb (gs := nnfFactors) ?_).bind fun x1 h1 => IS.pure ?_
  · unfold nnfFactors; factors1
  · refine results h1 (g := nnfResult) ?_ ?_
    · rintro x y ⟨⟨hq, hs, he⟩, hm⟩ s h0 hr
      cases s <;> simp [Subrel.rel] at hr <;> simp only [nnfResult, hq, hs] <;> lin
    · intro y s h0 hr
      cases s <;> simp [Subrel.rel] at hr <;> values [nnfResult, nnfFactors]

theorem external (hb : Cols (PPt P) b ys) :
    IS I (fun i => coRelation (d i) p (b i) .external) fun r => Cols (PRes P .external) r (ys.map (target p)) := by
  refine (h.mulRound hb (gs := externalFactors1 (· + ·)) ?_).bind fun x1 h1 => (h.mulRound h1 (gs := externalFactors2) ?_).bind fun x2 h2 => (h.mulRound h2 (gs := externalFactors3 (· + ·)) ?_).bind fun x3 h3 => IS.pure ?_
  · unfold externalFactors1; (try simp only [externalInput]); factors1
  · unfold externalFactors2; (try simp only [externalInput]); factors2
  · unfold externalFactors3; (try simp only [externalInput]); factors3
  · rw [List.map_map, List.map_map] at h3
    refine results h3 (g := externalResult) ?_ ?_
    · rintro x y ⟨⟨⟨⟨hq, hs, he⟩, hm⟩, hm2⟩, hm3⟩ s h0 hr
      cases s <;> simp [Subrel.rel] at hr <;> simp only [externalResult, externalInput, hq, hs] <;> lin
    · intro y s h0 hr
      cases s <;> simp [Subrel.rel] at hr <;> values [externalResult, externalInput, externalFactors1, externalFactors2, externalFactors3]

theorem internal (hb : Cols (PPt P) b ys) :
    IS I (fun i => coRelation (d i) p (b i) .internal) fun r => Cols (PRes P .internal) r (ys.map (target p)) := by
  refine (h.mulRound hb (gs := internalFactors1 (· + ·)) ?_).bind fun x1 h1 => (h.mulRound h1 (gs := internalFactors2) ?_).bind fun x2 h2 => (h.mulRound h2 (gs := internalFactors3 (· + ·)) ?_).bind fun x3 h3 => IS.pure ?_
  · unfold internalFactors1; factors1
  · unfold internalFactors2; factors2
  · unfold internalFactors3; factors3
  · rw [List.map_map, List.map_map] at h3
    refine results h3 (g := internalResult p) ?_ ?_
    · rintro x y ⟨⟨⟨⟨hq, hs, he⟩, hm⟩, hm2⟩, hm3⟩ s h0 hr
      cases s <;> simp [Subrel.rel] at hr <;> simp only [internalResult, hq, hs] <;> lin
    · intro y s h0 hr
      cases s <;> simp [Subrel.rel] at hr <;> values [internalResult, internalFactors1, internalFactors2, internalFactors3]

/-- All relations. -/
theorem relation (hb : Cols (PPt P) b ys) (r : Rel) :
    IS I (fun i => coRelation (d i) p (b i) r) fun z => Cols (PRes P r) z (ys.map (target p)) := by
  cases r
  · exact h.arith1 p hb
  · exact h.perm p hb
  · exact h.lookup p hb
  · exact h.delta p hb
  · exact h.elliptic p hb
  · exact h.memory p hb
  · exact h.nnf p hb
  · exact h.external p hb
  · exact h.internal p hb

/-- The half shares of the arithmetic relation. -/
theorem arith0 (hb : Cols (PPt P) b ys) :
    IS I (fun i => coArith0 (d i) (b i)) fun z => Cols H z (ys.map fun y => target p y .arith0) := by
  have hl := hb.map (f := fun _ x => x.e .wl) (g := fun y => y.e .wl) (Q := P) fun x y hxy => hxy.2.2 _ rfl
  have hr := hb.map (f := fun _ x => x.e .wr) (g := fun y => y.e .wr) (Q := P) fun x y hxy => hxy.2.2 _ rfl
  refine (h.localMulMany hl hr (by simp)).bind fun m hm => IS.pure ?_
  rw [List.zipWith_map, List.zipWith_self] at hm
  have e : (ys.map fun y => target p y .arith0) = List.zipWith (fun (y : Point F F) (m : F) =>
      ((m * y.q .qm * (y.q .qArith - 3) * -(2 : F)⁻¹ + (y.q .ql * y.e .wl + y.q .qr * y.e .wr + y.q .qo * y.e .wo + y.q .q4 * y.e .w4)
        + y.q .qc) + (y.q .qArith - 1) * y.e .w4Shift) * y.q .qArith * y.s) ys (ys.map fun y => y.e .wl * y.e .wr) := by
    rw [List.zipWith_map_right, List.zipWith_self]
    refine List.map_congr_left fun y _ => ?_
    values []
  rw [e]
  refine hb.zipWith hm fun x y m v hxy hmv => ?_
  obtain ⟨hq, hs, he⟩ := hxy
  simp only [arithHalf, hq, hs]
  refine h.hmul _ (h.hmul _ (h.hadd (h.addPubHalf _ (h.hadd (h.hmul _ (h.hmul _ (h.hmul _ hmv)))
    (h.hadd (h.hadd (h.hadd ?_ ?_) ?_) ?_))) ?_)) <;> exact h.toHalf _ (he _ rfl)

end SumSim

end Verif.Honk
