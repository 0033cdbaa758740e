import Verif.Honk.BuildRange

/-!
# Lemmas about the gates of expressions
-/

namespace Verif.Honk.Draft

open Acvm (Expression Input Opcode)

variable {F : Type} [Field F] [DecidableEq F]

/-- The value of a variable that may be missing. -/
def opt (a : Nat → F) (i : Option Nat) : F := i.elim 0 a

/-- The sum of a map of linear terms. -/
def mapSum (a : Nat → F) (m : List (Nat × F)) : F := (m.map fun x => x.2 * a x.1).sum

/-- The value of an expression. -/
def exprValue (a : Nat → F) (e : Expression F) : F :=
  (e.mulTerms.map fun t => t.1 * a t.2.1 * a t.2.2).sum + (e.linear.map fun t => t.1 * a t.2).sum + e.qc

/-- The sum of the values of gates. -/
def quadSum (a : Nat → F) (qs : List (Quad F (Option Nat))) : F := (qs.map (Quad.value (opt a))).sum

/-- The witnesses of a map are in order. -/
def Ordered (m : List (Nat × F)) : Prop := m.Pairwise fun x y => x.1 < y.1

theorem insertTerm_sum (a : Nat → F) (w : Nat) (q : F) : ∀ m, mapSum a (insertTerm w q m) = mapSum a m + q * a w
  | [] => by simp [insertTerm, mapSum]
  | x :: xs => by
    have ih := insertTerm_sum a w q xs
    simp only [mapSum] at ih
    rw [insertTerm]
    by_cases h1 : w < x.1
    · rw [if_pos h1]; simp [mapSum]; ring
    · rw [if_neg h1]
      by_cases h2 : x.1 < w
      · rw [if_pos h2]; simp only [mapSum, List.map_cons, List.sum_cons, ih]; ring
      · rw [if_neg h2]
        obtain rfl : w = x.1 := by omega
        simp only [mapSum, List.map_cons, List.sum_cons]; ring

theorem mem_insertTerm {w : Nat} {q : F} {y : Nat × F} : ∀ {m}, y ∈ insertTerm w q m → y.1 = w ∨ y ∈ m
  | [], h => by simp [insertTerm] at h; left; rw [h]
  | x :: xs, h => by
    rw [insertTerm] at h
    split_ifs at h with h1 h2
    · rcases List.mem_cons.1 h with rfl | h
      · exact .inl rfl
      · exact .inr h
    · rcases List.mem_cons.1 h with rfl | h
      · exact .inr List.mem_cons_self
      · exact (mem_insertTerm h).imp id fun h => List.mem_cons_of_mem _ h
    · rcases List.mem_cons.1 h with rfl | h
      · exact .inl rfl
      · exact .inr (List.mem_cons_of_mem _ h)

theorem insertTerm_ordered (w : Nat) (q : F) : ∀ {m : List (Nat × F)}, Ordered m → Ordered (insertTerm w q m)
  | [], _ => by simp [insertTerm, Ordered]
  | x :: xs, h => by
    obtain ⟨hx, h⟩ := List.pairwise_cons.1 h
    rw [insertTerm]
    split_ifs with h1 h2
    · exact List.pairwise_cons.2 ⟨fun y hy => by
        rcases List.mem_cons.1 hy with rfl | hy
        · exact h1
        · exact h1.trans (hx y hy), List.pairwise_cons.2 ⟨hx, h⟩⟩
    · exact List.pairwise_cons.2 ⟨fun y hy => by
        rcases mem_insertTerm hy with e | hy
        · rw [e]; exact h2
        · exact hx y hy, insertTerm_ordered w q h⟩
    · obtain rfl : w = x.1 := by omega
      exact List.pairwise_cons.2 ⟨hx, h⟩

theorem linearTerms_fold (a : Nat → F) (ls : List (F × Nat)) : ∀ {m : List (Nat × F)}, Ordered m →
    Ordered (ls.foldl (fun m t => insertTerm t.2 t.1 m) m) ∧
    mapSum a (ls.foldl (fun m t => insertTerm t.2 t.1 m) m) = mapSum a m + (ls.map fun t => t.1 * a t.2).sum := by
  induction ls with
  | nil => intro m h; exact ⟨h, by simp⟩
  | cons t ls ih =>
    intro m h
    obtain ⟨h1, h2⟩ := ih (insertTerm_ordered t.2 t.1 h)
    refine ⟨h1, h2.trans ?_⟩
    rw [insertTerm_sum, List.map_cons, List.sum_cons]; ring

theorem takeTerm_sum (a : Nat → F) (w : Nat) : ∀ {m : List (Nat × F)}, Ordered m →
    mapSum a m = (takeTerm m w).1 * a w + mapSum a (takeTerm m w).2
  | [], _ => by simp [takeTerm, mapSum]
  | x :: xs, h => by
    obtain ⟨hx, h⟩ := List.pairwise_cons.1 h
    have ih := takeTerm_sum a w h
    simp only [takeTerm] at ih ⊢
    by_cases e : x.1 = w
    · subst e
      have hf : (xs.filter fun y => y.1 ≠ x.1) = xs := List.filter_eq_self.2 fun y hy => by simpa using (hx y hy).ne'
      have hl : List.lookup x.1 (x :: xs) = some x.2 := by rw [show x = (x.1, x.2) from rfl, List.lookup_cons]; simp
      rw [hl, List.filter_cons_of_neg (by simp), hf]
      simp [mapSum]
    · have hl : List.lookup w (x :: xs) = xs.lookup w := by
        rw [show x = (x.1, x.2) from rfl, List.lookup_cons, beq_eq_false_iff_ne.2 (Ne.symm e)]
      rw [hl, List.filter_cons_of_pos (by simpa using e)]
      simp only [mapSum, List.map_cons, List.sum_cons] at ih ⊢
      rw [ih]; ring

theorem takeTerm_ordered {m : List (Nat × F)} (h : Ordered m) (w : Nat) : Ordered (takeTerm m w).2 := h.filter _

/-- The wires that step 2 fills are free. -/
structure Free (q : Quad F (Option Nat)) : Prop where
  c : q.c = none
  d : q.d = none
  qc : q.qc = 0
  qd : q.qd = 0
  const : q.const = 0

theorem mulQuads_sum (a : Nat → F) : ∀ (ts : List (F × Nat × Nat)) {m : List (Nat × F)}, Ordered m →
    quadSum a (mulQuads ts m).1 + mapSum a (mulQuads ts m).2 = (ts.map fun t => t.1 * a t.2.1 * a t.2.2).sum + mapSum a m ∧
    (∀ q ∈ (mulQuads ts m).1, Free q)
  | [], m, _ => by simp [mulQuads, quadSum]
  | t :: ts, m, h => by
    obtain ⟨h1, h2⟩ := mulQuads_sum a ts (takeTerm_ordered (takeTerm_ordered h t.2.1) t.2.2)
    have e1 := takeTerm_sum a t.2.1 h
    have e2 := takeTerm_sum a t.2.2 (takeTerm_ordered h t.2.1)
    simp only [mulQuads]
    constructor
    · simp only [quadSum, List.map_cons, List.sum_cons, Quad.value, opt, Option.elim] at h1 ⊢
      rw [e1, e2]
      linear_combination h1
    · intro q hq
      rcases List.mem_cons.1 hq with rfl | hq
      · exact ⟨rfl, rfl, rfl, rfl, rfl⟩
      · exact h2 q hq

theorem popTerm_sum (a : Nat → F) (m : List (Nat × F)) : mapSum a m = (popTerm m).1.2 * opt a (popTerm m).1.1 + mapSum a (popTerm m).2 := by
  cases m with
  | nil => simp [popTerm, mapSum]
  | cons x xs => simp [popTerm, mapSum, opt]

theorem fillQuads_sum (a : Nat → F) (k : F) : ∀ (b : Bool) (qs : List (Quad F (Option Nat))) (m : List (Nat × F)), (∀ q ∈ qs, Free q) →
    quadSum a (fillQuads k b qs m).1 + mapSum a (fillQuads k b qs m).2 =
      quadSum a qs + mapSum a m + (if b ∧ qs ≠ [] then k else 0) ∧
    (fillQuads k b qs m).1.length = qs.length ∧
    ∀ q ∈ if b then (fillQuads k b qs m).1.tail else (fillQuads k b qs m).1, q.d = none ∧ q.qd = 0
  | b, [], m, _ => by cases b <;> simp [fillQuads, quadSum]
  | b, q :: qs, m, h => by
    have hq := h q List.mem_cons_self
    have h' := fun q hq => h q (List.mem_cons_of_mem _ hq)
    have e1 := popTerm_sum a m
    have e2 := popTerm_sum a (popTerm m).2
    cases b with
    | false =>
      obtain ⟨h1, h2, h3⟩ := fillQuads_sum a k false qs (popTerm m).2 h'
      simp only [fillQuads, Bool.false_eq_true, if_false] at h1 h3 ⊢
      refine ⟨?_, by simp [h2], ?_⟩
      · simp only [quadSum, List.map_cons, List.sum_cons, Quad.value, hq.c, hq.d, hq.qc, hq.qd, hq.const, false_and, if_false] at h1 ⊢
        rw [e1]
        simp only [opt, Option.elim] at *
        linear_combination h1
      · intro q' hq'
        rcases List.mem_cons.1 hq' with rfl | hq'
        · exact ⟨hq.d, hq.qd⟩
        · exact h3 q' hq'
    | true =>
      obtain ⟨h1, h2, h3⟩ := fillQuads_sum a k false qs (popTerm (popTerm m).2).2 h'
      simp only [fillQuads, Bool.false_eq_true, if_false, if_true] at h1 h3 ⊢
      refine ⟨?_, by simp [h2], ?_⟩
      · simp only [quadSum, List.map_cons, List.sum_cons, Quad.value, hq.c, hq.d, hq.qc, hq.qd, hq.const, false_and, if_false] at h1 ⊢
        rw [e1, e2, if_pos (by simp)]
        simp only [opt, Option.elim] at *
        linear_combination h1
      · exact h3

theorem restQuads_sum (a : Nat → F) (k : F) : ∀ (fuel : Nat) (b : Bool) (m : List (Nat × F)), m.length ≤ fuel →
    quadSum a (restQuads k fuel b m) = mapSum a m + (if b ∧ m ≠ [] then k else 0) ∧
    (restQuads k fuel b m = [] → m = []) ∧
    ∀ q ∈ if b then (restQuads k fuel b m).tail else restQuads k fuel b m, q.d = none ∧ q.qd = 0
  | 0, b, m, h => by
    obtain rfl := List.eq_nil_of_length_eq_zero (Nat.le_zero.1 h)
    cases b <;> simp [restQuads, quadSum, mapSum]
  | fuel + 1, b, [], h => by cases b <;> simp [restQuads, quadSum, mapSum]
  | fuel + 1, b, x :: xs, h => by
    have hp : ∀ l : List (Nat × F), (popTerm l).2.length ≤ l.length := by
      intro l; cases l <;> simp [popTerm]
    have l1 := hp xs
    have l2 := hp (popTerm xs).2
    have l3 := hp (popTerm (popTerm xs).2).2
    simp only [List.length_cons] at h
    have e1 := popTerm_sum a xs
    have e2 := popTerm_sum a (popTerm xs).2
    have e3 := popTerm_sum a (popTerm (popTerm xs).2).2
    have ex : mapSum a (x :: xs) = x.2 * a x.1 + mapSum a xs := by simp [mapSum]
    cases b with
    | false =>
      obtain ⟨h1, -, h3⟩ := restQuads_sum a k fuel false (popTerm (popTerm xs).2).2 (by omega)
      simp only [restQuads, Bool.false_eq_true, if_false] at h1 h3 ⊢
      refine ⟨?_, by simp, ?_⟩
      · rw [ex, e1, e2]
        simp only [quadSum, List.map_cons, List.sum_cons, Quad.value, false_and, if_false, opt, Option.elim] at h1 ⊢
        linear_combination h1
      · intro q hq
        rcases List.mem_cons.1 hq with rfl | hq
        · exact ⟨rfl, rfl⟩
        · exact h3 q hq
    | true =>
      obtain ⟨h1, -, h3⟩ := restQuads_sum a k fuel false (popTerm (popTerm (popTerm xs).2).2).2 (by omega)
      simp only [restQuads, Bool.false_eq_true, if_false, if_true] at h1 h3 ⊢
      refine ⟨?_, by simp, h3⟩
      rw [ex, e1, e2, e3, if_pos (by simp)]
      simp only [quadSum, List.map_cons, List.sum_cons, Quad.value, false_and, if_false, opt, Option.elim] at h1 ⊢
      linear_combination h1

/-- The gates of an expression add up to its value. -/
theorem splitQuads_sum (a : Nat → F) {e : Expression F} {qs : List (Quad F (Option Nat))} (h : splitQuads e (linearTerms e) = .ok qs) :
    quadSum a qs = exprValue a e ∧ qs ≠ [] ∧ ∀ q ∈ qs.tail, q.d = none ∧ q.qd = 0 := by
  obtain ⟨_, hne, h⟩ := bind_ok.1 h
  have hne := check_ok.1 hne
  rw [decide_eq_true_iff] at hne
  have ho : Ordered (linearTerms e) := (linearTerms_fold a e.linear (m := []) List.Pairwise.nil).1
  have hm : mapSum a (linearTerms e) = _ := (linearTerms_fold a e.linear (m := []) List.Pairwise.nil).2
  obtain ⟨h1, hf⟩ := mulQuads_sum a e.mulTerms ho
  obtain ⟨h2, hl, ht⟩ := fillQuads_sum a e.qc true _ (mulQuads e.mulTerms (linearTerms e)).2 hf
  generalize mulQuads e.mulTerms (linearTerms e) = Q at *
  generalize fillQuads e.qc true Q.1 Q.2 = R at *
  obtain ⟨h3, h4, h5⟩ := restQuads_sum a e.qc R.2.length R.1.isEmpty R.2 le_rfl
  cases h
  refine ⟨?_, hne, ?_⟩
  · have hs : ∀ x y, quadSum a (x ++ y) = quadSum a x + quadSum a y := by intro x y; simp [quadSum]
    rw [hs, h3, exprValue]
    by_cases hR : R.1 = []
    · have hQ : Q.1 = [] := by rw [← List.length_eq_zero_iff, ← hl, hR]; rfl
      have hR2 : R.2 ≠ [] := by
        intro h0
        rw [hR, h0] at hne
        exact hne (by simp [restQuads])
      rw [if_neg (by simp [hQ])] at h2
      rw [if_pos (by simp [hR, hR2])]
      rw [hm] at h1
      have h0 : mapSum a ([] : List (Nat × F)) = 0 := rfl
      rw [h0] at h1
      linear_combination h2 + h1
    · have hQ : Q.1 ≠ [] := by rw [Ne, ← List.length_eq_zero_iff, ← hl, List.length_eq_zero_iff]; exact hR
      rw [if_pos ⟨rfl, hQ⟩] at h2
      rw [if_neg (by simp [hR])]
      rw [hm] at h1
      have h0 : mapSum a ([] : List (Nat × F)) = 0 := rfl
      rw [h0] at h1
      linear_combination h2 + h1
  · intro q hq
    by_cases hR : R.1 = []
    · rw [hR, List.nil_append] at hq
      simp only [hR, List.isEmpty_nil, if_true] at h5 hq
      exact h5 q hq
    · rw [List.tail_append_of_ne_nil hR] at hq
      rcases List.mem_append.1 hq with hq | hq
      · exact ht q (by simpa using hq)
      · have : R.1.isEmpty = false := by simpa using hR
        rw [this] at h5 hq
        exact h5 q hq

/-! ## The gates in the circuit -/

theorem resolve_ok {s : Draft F} {i : Option Nat} {q : F} {j : Nat} (h : s.resolve i q = .ok j) : j = i.getD s.zeroIdx := by
  cases i with
  | some i => cases h; rfl
  | none =>
    obtain ⟨_, -, h⟩ := bind_ok.1 h
    cases h; rfl

theorem setZero_ok {s : Draft F} {q : Quad F (Option Nat)} {g : Quad F Nat} (h : s.setZero q = .ok g) :
    g = ⟨q.a.getD s.zeroIdx, q.b.getD s.zeroIdx, q.c.getD s.zeroIdx, q.d.getD s.zeroIdx, q.mul, q.qa, q.qb, q.qc, q.qd, q.const⟩ := by
  rw [setZero] at h
  cases ha : q.a with
  | none => rw [ha] at h; cases h
  | some a =>
    rw [ha] at h
    obtain ⟨b, h1, h⟩ := bind_ok.1 h
    obtain ⟨c, h2, h⟩ := bind_ok.1 h
    obtain ⟨d, h3, h⟩ := bind_ok.1 h
    cases h
    rw [resolve_ok h1, resolve_ok h2, resolve_ok h3]; rfl

theorem setZero_value {s : Draft F} {q : Quad F (Option Nat)} {g : Quad F Nat} (h : s.setZero q = .ok g) {w : Nat → F} (hz : w s.zeroIdx = 0) :
    g.value w = q.value (opt w) := by
  have hw : ∀ i : Option Nat, w (i.getD s.zeroIdx) = opt w i := by
    intro i; cases i with
    | none => exact hz
    | some i => rfl
  rw [setZero_ok h]
  simp only [Quad.value, hw]

theorem bigQuad_spec : ∀ (qs : List (Quad F (Option Nat))) {s s' : Draft F}, Inv s → s.bigQuadConstraint qs = .ok s' →
    (∀ q ∈ qs.tail, q.d = none ∧ q.qd = 0) →
    Inv s' ∧ Ext s s' ∧ (∃ g, s.arith ++ [g] <+: s'.arith ∧ ∀ q, qs.head? = some q → ∀ d, q.d = some d → g.row 3 = d) ∧
      ∀ t, Ext s' t → ∀ w : Nat → F, Good w t → quadSum w qs = 0
  | [], s, s', _, hr, _ => by rw [bigQuadConstraint] at hr; cases hr
  | [q], s, s', h, hr, _ => by
    rw [bigQuadConstraint] at hr
    obtain ⟨g, h1, hr⟩ := bind_ok.1 hr
    obtain ⟨i1, e1⟩ := bigGate_inv hr h
    have hs := (bigGate_eq hr).2
    refine ⟨i1, e1, ⟨_, by rw [hs]; exact List.prefix_rfl, ?_⟩, fun t ht w hw => ?_⟩
    · intro q' hq' d hd
      obtain rfl : q = q' := by simpa using hq'
      rw [setZero_ok h1, hd]; rfl
    · have := bigGate_meaning hr ht hw
      rw [setZero_value h1 ((e1.trans ht).zero ▸ hw.zero)] at this
      simpa [quadSum] using this
  | q :: q' :: qs, s, s', h, hr, ht => by
    rw [bigQuadConstraint] at hr
    obtain ⟨g, h1, hr⟩ := bind_ok.1 hr
    obtain ⟨s1, h2, hr⟩ := bind_ok.1 hr
    obtain ⟨a, -, hr⟩ := bind_ok.1 hr
    obtain ⟨b, -, hr⟩ := bind_ok.1 hr
    obtain ⟨c, -, hr⟩ := bind_ok.1 hr
    obtain ⟨d, -, hr⟩ := bind_ok.1 hr
    obtain ⟨i1, e1⟩ := bigGate_inv h2 h
    have hs := (bigGate_eq h2).2
    have e2 := ext_addVariable i1 (-(g.const + g.mul * (a * b) + g.qa * a + g.qb * b + g.qc * c + g.qd * d))
    obtain ⟨i3, e3, ⟨g', hg', hd'⟩, hm⟩ := bigQuad_spec ({ q' with d := some s1.vars.length, qd := -1 } :: qs) (i1.addVariable _) hr
      fun x hx => ht x (List.mem_cons_of_mem _ hx)
    refine ⟨i3, e1.trans (e2.trans e3), ?_, fun t ht' w hw => ?_⟩
    · have ha := (e2.trans e3).arith
      rw [hs] at ha
      refine ⟨_, ha, ?_⟩
      intro q1 hq1 d hd
      obtain rfl : q = q1 := by simpa using hq1
      rw [setZero_ok h1, hd]; rfl
    · have h3 := bigGate_next h2 (hg'.trans ht'.arith) hw
      rw [hd' _ rfl _ rfl, setZero_value h1 ((e1.trans (e2.trans (e3.trans ht'))).zero ▸ hw.zero)] at h3
      have h4 := hm t ht' w hw
      obtain ⟨hq1, hq2⟩ := ht q' List.mem_cons_self
      simp only [quadSum, List.map_cons, List.sum_cons, Quad.value, hq1, hq2] at h3 h4 ⊢
      simp only [opt, Option.elim] at h3 h4 ⊢
      linear_combination h3 + h4
termination_by qs => qs.length

theorem quadConstraint_spec {s s' : Draft F} {q : Quad F (Option Nat)} (h : Inv s) (hr : s.quadConstraint q = .ok s') :
    Inv s' ∧ Ext s s' ∧ ∀ t, Ext s' t → ∀ w : Nat → F, Good w t → q.value (opt w) = 0 := by
  obtain ⟨g, h1, hr⟩ := bind_ok.1 hr
  obtain ⟨i1, e1⟩ := bigGate_inv hr h
  refine ⟨i1, e1, fun t ht w hw => ?_⟩
  have := bigGate_meaning hr ht hw
  rwa [setZero_value h1 ((e1.trans ht).zero ▸ hw.zero)] at this

end Verif.Honk.Draft
