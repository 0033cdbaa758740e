import Verif.CoNoir.AcvmDrivers
import Verif.Spec.Acir
import Verif.CircomVm.VmRel
import Mathlib.Tactic.Ring
import Mathlib.Tactic.LinearCombination
import Mathlib.Tactic.FieldSimp

/-!
# The solver on plain values
-/

namespace Verif.Acvm

open Spec.Acir
open CircomVm (bind_ok ok_inj)

variable {p : Nat} [Fact p.Prime]

/-- The witnesses of a map. -/
def known {V : Type} (W : Nat → Option V) (w : Nat) : Prop := W w ≠ none

theorem exists_of_known {V : Type} {W : Nat → Option V} {w : Nat} (h : known W w) : ∃ v, W w = some v :=
  Option.ne_none_iff_exists'.mp h

theorem known_of {V : Type} {W : Nat → Option V} {w : Nat} {v : V} (h : W w = some v) : known W w := by
  simp [known, h]

/-! ### Simplification -/

/-- The sum of products with values. -/
def lin (a : Assignment p) (l : List (ZMod p × Nat)) : ZMod p := (l.map fun t => t.1 * a t.2).sum

theorem lin_append (a : Assignment p) (l l' : List (ZMod p × Nat)) : lin a (l ++ l') = lin a l + lin a l' := by
  simp [lin]

theorem lin_nil (a : Assignment p) : lin a [] = 0 := rfl

theorem lin_cons (a : Assignment p) (t : ZMod p × Nat) (l : List (ZMod p × Nat)) :
    lin a (t :: l) = t.1 * a t.2 + lin a l := by simp [lin]

open Classical in
/-- The unknown occurrences in products. -/
noncomputable def mulUnknowns (a : Assignment p) (kn : Nat → Prop) (ts : List (ZMod p × Nat × Nat)) : List (ZMod p × Nat) :=
  ts.filterMap fun t =>
    if t.1 = 0 then none
    else if ¬ kn t.2.2 then some (t.1 * a t.2.1, t.2.2)
    else if ¬ kn t.2.1 then some (t.1 * a t.2.2, t.2.1) else none

open Classical in
/-- The unknown occurrences in linear terms. -/
noncomputable def linUnknowns (kn : Nat → Prop) (ts : List (ZMod p × Nat)) : List (ZMod p × Nat) :=
  ts.filterMap fun t => if kn t.2 then none else some t

theorem unknowns_eq (a : Assignment p) (kn : Nat → Prop) (e : Expression (ZMod p)) :
    unknowns a kn e = mulUnknowns a kn e.mulTerms ++ linUnknowns kn e.linear := rfl

/-- The condition under which products are evaluated. -/
def MulOk (kn : Nat → Prop) (ts : List (ZMod p × Nat × Nat)) : Prop := ∀ t ∈ ts, t.1 ≠ 0 → kn t.2.1 ∨ kn t.2.2

theorem mulTerms_ok {a : Assignment p} {W : Nat → Option (ZMod p)} (ha : Extends a W) :
    ∀ (ts : List (ZMod p × Nat × Nat)) (acc : Acc (ZMod p)), MulOk (known W) ts →
      ∃ qc, evaluateMulTerms (plain p) W ts acc = .ok ⟨acc.linear ++ mulUnknowns a (known W) ts, qc⟩ ∧
        (ts.map fun t => t.1 * a t.2.1 * a t.2.2).sum + acc.qc = lin a (mulUnknowns a (known W) ts) + qc
  | [], acc, _ => ⟨acc.qc, by simp [evaluateMulTerms, mulUnknowns, pure, Except.pure], by simp [mulUnknowns, lin]⟩
  | (c, l, r) :: ts, acc, h => by
    have h' : MulOk (known W) ts := fun t ht => h t (List.mem_cons_of_mem _ ht)
    unfold evaluateMulTerms
    by_cases hc : c = 0
    · obtain ⟨qc, h1, h2⟩ := mulTerms_ok ha ts acc h'
      refine ⟨qc, ?_, ?_⟩
      · rw [if_pos hc, h1]
        simp [mulUnknowns, hc]
      · simp only [List.map_cons, List.sum_cons, mulUnknowns, List.filterMap_cons, if_pos hc]
        rw [hc]
        simp only [mulUnknowns] at h2
        linear_combination h2
    · rw [if_neg hc]
      have hk := h (c, l, r) List.mem_cons_self hc
      dsimp only at hk
      cases hl : W l with
      | none =>
        have hkl : ¬ known W l := by simp [known, hl]
        obtain ⟨y, hr⟩ := exists_of_known (hk.resolve_left hkl)
        have hkr := known_of hr
        rw [hr]
        obtain ⟨qc, h1, h2⟩ := mulTerms_ok ha ts { acc with linear := acc.linear ++ [(y * c, l)] } h'
        refine ⟨qc, ?_, ?_⟩
        · show evaluateMulTerms (plain p) W ts { acc with linear := acc.linear ++ [(y * c, l)] } = _
          rw [h1]
          simp [mulUnknowns, hc, hkr, hkl, ha _ _ hr, mul_comm y c]
        · simp only [List.map_cons, List.sum_cons, mulUnknowns, List.filterMap_cons, if_neg hc, hkr, hkl, not_true,
            not_false_eq_true, if_true, if_false, lin_cons]
          simp only [mulUnknowns] at h2
          linear_combination h2
      | some x =>
        have hkl := known_of hl
        cases hr : W r with
        | none =>
          have hkr : ¬ known W r := by simp [known, hr]
          obtain ⟨qc, h1, h2⟩ := mulTerms_ok ha ts { acc with linear := acc.linear ++ [(x * c, r)] } h'
          refine ⟨qc, ?_, ?_⟩
          · show evaluateMulTerms (plain p) W ts { acc with linear := acc.linear ++ [(x * c, r)] } = _
            rw [h1]
            simp [mulUnknowns, hc, hkr, ha _ _ hl, mul_comm x c]
          · simp only [List.map_cons, List.sum_cons, mulUnknowns, List.filterMap_cons, if_neg hc, hkr,
              not_false_eq_true, if_true, lin_cons]
            simp only [mulUnknowns] at h2
            linear_combination h2
        | some y =>
          have hkr := known_of hr
          obtain ⟨qc, h1, h2⟩ := mulTerms_ok ha ts { acc with qc := acc.qc + c * x * y } h'
          refine ⟨qc, ?_, ?_⟩
          · show evaluateMulTerms (plain p) W ts { acc with qc := acc.qc + c * x * y } = _
            rw [h1]
            simp [mulUnknowns, hc, hkr, hkl]
          · simp only [List.map_cons, List.sum_cons, mulUnknowns, List.filterMap_cons, if_neg hc, hkr, hkl, not_true,
              if_false, ha _ _ hl, ha _ _ hr]
            simp only [mulUnknowns] at h2
            linear_combination h2

theorem mulOk_of_ok {W : Nat → Option (ZMod p)} :
    ∀ (ts : List (ZMod p × Nat × Nat)) (acc acc' : Acc (ZMod p)), evaluateMulTerms (plain p) W ts acc = .ok acc' →
      MulOk (known W) ts
  | [], _, _, _ => fun _ h => by cases h
  | (c, l, r) :: ts, acc, acc', h => by
    unfold evaluateMulTerms at h
    by_cases hc : c = 0
    · rw [if_pos hc] at h
      intro t ht h0
      rcases List.mem_cons.mp ht with rfl | ht
      · exact absurd hc h0
      · exact mulOk_of_ok ts _ _ h t ht h0
    · rw [if_neg hc] at h
      intro t ht h0
      have key : (known W l ∨ known W r) ∧ ∃ acc, evaluateMulTerms (plain p) W ts acc = .ok acc' := by
        cases hl : W l with
        | none =>
          cases hr : W r with
          | none => rw [hl, hr] at h; cases h
          | some y => rw [hl, hr] at h; exact ⟨.inr (known_of hr), _, h⟩
        | some x =>
          cases hr : W r with
          | none => rw [hl, hr] at h; exact ⟨.inl (known_of hl), _, h⟩
          | some y => rw [hl, hr] at h; exact ⟨.inl (known_of hl), _, h⟩
      rcases List.mem_cons.mp ht with rfl | ht
      · exact key.1
      · obtain ⟨acc, h⟩ := key.2
        exact mulOk_of_ok ts _ _ h t ht h0

theorem linTerms_ok {a : Assignment p} {W : Nat → Option (ZMod p)} (ha : Extends a W) :
    ∀ (ts : List (ZMod p × Nat)) (acc : Acc (ZMod p)),
      ∃ qc, evaluateLinearTerms (plain p) W ts acc = .ok ⟨acc.linear ++ linUnknowns (known W) ts, qc⟩ ∧
        lin a ts + acc.qc = lin a (linUnknowns (known W) ts) + qc
  | [], acc => ⟨acc.qc, by simp [evaluateLinearTerms, linUnknowns, pure, Except.pure], by simp [linUnknowns]⟩
  | (q, w) :: ts, acc => by
    unfold evaluateLinearTerms
    cases hw : W w with
    | none =>
      have hk : ¬ known W w := by simp [known, hw]
      obtain ⟨qc, h1, h2⟩ := linTerms_ok ha ts { acc with linear := acc.linear ++ [(q, w)] }
      refine ⟨qc, ?_, ?_⟩
      · show evaluateLinearTerms (plain p) W ts { acc with linear := acc.linear ++ [(q, w)] } = _
        rw [h1]
        simp [linUnknowns, hk]
      · simp only [linUnknowns, List.filterMap_cons, hk, if_false, lin_cons]
        simp only [linUnknowns] at h2
        linear_combination h2
    | some x =>
      have hk := known_of hw
      obtain ⟨qc, h1, h2⟩ := linTerms_ok ha ts { acc with qc := acc.qc + q * x }
      refine ⟨qc, ?_, ?_⟩
      · show evaluateLinearTerms (plain p) W ts { acc with qc := acc.qc + q * x } = _
        rw [h1]
        simp [linUnknowns, hk]
      · simp only [linUnknowns, List.filterMap_cons, hk, if_true, lin_cons, ha _ _ hw]
        simp only [linUnknowns] at h2
        linear_combination h2

theorem simplify_ok {a : Assignment p} {W : Nat → Option (ZMod p)} (ha : Extends a W) {e : Expression (ZMod p)}
    (h : MulOk (known W) e.mulTerms) :
    ∃ qc, simplifyExpression (plain p) W e = .ok ⟨unknowns a (known W) e, qc⟩ ∧
      eval a e = lin a (unknowns a (known W) e) + qc := by
  obtain ⟨q1, h1, h2⟩ := mulTerms_ok ha e.mulTerms ⟨[], 0⟩ h
  obtain ⟨q2, h3, h4⟩ := linTerms_ok ha e.linear ⟨[] ++ mulUnknowns a (known W) e.mulTerms, q1⟩
  refine ⟨q2 + e.qc, ?_, ?_⟩
  · unfold simplifyExpression
    show (evaluateMulTerms (plain p) W e.mulTerms ⟨[], 0⟩ >>= _) = _
    rw [h1]
    show (evaluateLinearTerms (plain p) W e.linear ⟨[] ++ mulUnknowns a (known W) e.mulTerms, q1⟩ >>= _) = _
    rw [h3]
    simp only [unknowns_eq, List.nil_append]
    rfl
  · rw [unknowns_eq, lin_append]
    unfold eval
    have : (e.linear.map fun t => t.1 * a t.2).sum = lin a e.linear := rfl
    rw [this]
    linear_combination h2 + h4

theorem mulOk_of_simplify {W : Nat → Option (ZMod p)} {e : Expression (ZMod p)} {acc : Acc (ZMod p)}
    (h : simplifyExpression (plain p) W e = .ok acc) : MulOk (known W) e.mulTerms := by
  obtain ⟨x, h, -⟩ := bind_ok h
  exact mulOk_of_ok _ _ _ h

theorem mem_unknowns {a : Assignment p} {kn : Nat → Prop} {e : Expression (ZMod p)} {t : ZMod p × Nat}
    (h : t ∈ unknowns a kn e) : mentions e t.2 ∧ ¬ kn t.2 := by
  rw [unknowns_eq, List.mem_append] at h
  rcases h with h | h
  · obtain ⟨u, hu, h⟩ := List.mem_filterMap.mp h
    split_ifs at h with h1 h2 h3
    · cases h
      exact ⟨.inl ⟨u, hu, h1, .inl rfl⟩, h3⟩
    · cases h
      exact ⟨.inl ⟨u, hu, h1, .inr rfl⟩, h2⟩
  · obtain ⟨u, hu, h⟩ := List.mem_filterMap.mp h
    split_ifs at h with h1
    obtain rfl : u = t := Option.some.inj h
    exact ⟨.inr ⟨u, hu, rfl⟩, h1⟩

theorem unknowns_of_mentions {a : Assignment p} {kn : Nat → Prop} {e : Expression (ZMod p)} {w : Nat}
    (hok : MulOk kn e.mulTerms) (h : mentions e w) (hw : ¬ kn w) : ∃ q, (q, w) ∈ unknowns a kn e := by
  rw [unknowns_eq]
  rcases h with ⟨t, ht, h0, h⟩ | ⟨t, ht, h⟩
  · have hk := hok t ht h0
    rcases h with h | h
    · have h2 : kn t.2.2 := hk.resolve_left (by rw [h]; exact hw)
      refine ⟨t.1 * a t.2.2, List.mem_append_left _ (List.mem_filterMap.mpr ⟨t, ht, ?_⟩)⟩
      rw [if_neg h0, if_neg (not_not.mpr h2), if_pos (by rw [h]; exact hw), h]
    · refine ⟨t.1 * a t.2.1, List.mem_append_left _ (List.mem_filterMap.mpr ⟨t, ht, ?_⟩)⟩
      rw [if_neg h0, if_pos (by rw [h]; exact hw), h]
  · refine ⟨t.1, List.mem_append_right _ (List.mem_filterMap.mpr ⟨t, ht, ?_⟩)⟩
    rw [if_neg (by rw [h]; exact hw), ← h]

/-- Some assignment with the values of a map. -/
def someExt (W : Nat → Option (ZMod p)) : Assignment p := fun w => (W w).getD 0

theorem extends_someExt (W : Nat → Option (ZMod p)) : Extends (someExt W) W := fun w v h => by simp [someExt, h]

/-! ### One opcode -/

abbrev PSt (p : Nat) : Type := St (ZMod p) (List (ZMod p))

omit [Fact p.Prime] in
theorem extends_insert {a : Assignment p} {s : PSt p} {w : Nat} {v : ZMod p} (h : Extends a s.witness) (hv : a w = v) :
    Extends a (s.insert w v).witness := by
  intro u x hx
  by_cases huw : u = w
  · subst huw
    simp only [St.insert, Function.update_self, Option.some.injEq] at hx
    rw [hv, hx]
  · simp only [St.insert, Function.update_of_ne huw] at hx
    exact h u x hx

omit [Fact p.Prime] in
theorem extends_of_insert {a : Assignment p} {s : PSt p} {w : Nat} {v : ZMod p} (h : Extends a (s.insert w v).witness)
    (ho : ∀ x, s.witness w = some x → x = v) : Extends a s.witness ∧ a w = v := by
  have hw : a w = v := h w v (by simp [St.insert])
  refine ⟨fun u x hx => ?_, hw⟩
  by_cases huw : u = w
  · subst huw
    rw [hw, ho x hx]
  · exact h u x (by simp only [St.insert, Function.update_of_ne huw]; exact hx)

theorem known_insert {V L : Type} {s : St V L} {w : Nat} {v : V} :
    known (s.insert w v).witness = fun u => known s.witness u ∨ u = w := by
  funext u
  by_cases h : u = w
  · subst h; simp [known, St.insert]
  · simp [known, St.insert, h]

/-- What solving a constraint does. -/
theorem assertZero_cases {s s' : PSt p} {e : Expression (ZMod p)} (h : solveAssertZero (plain p) s e = .ok s') :
    MulOk (known s.witness) e.mulTerms ∧
    (((∀ w, mentions e w → known s.witness w) ∧ s' = s) ∨
      ∃ w v, s.witness w = none ∧ mentions e w ∧ (∀ u, mentions e u → known s.witness u ∨ u = w) ∧ s' = s.insert w v ∧
        ∀ a, Extends a s.witness → (eval a e = 0 ↔ a w = v)) := by
  obtain ⟨acc, h1, h2⟩ := bind_ok h
  have hok := mulOk_of_simplify h1
  refine ⟨hok, ?_⟩
  have hs : ∀ a, Extends a s.witness → unknowns a (known s.witness) e = acc.linear ∧ eval a e = lin a acc.linear + acc.qc := by
    intro a ha
    obtain ⟨qc, h3, h4⟩ := simplify_ok ha hok
    rw [h1] at h3
    cases h3
    exact ⟨rfl, h4⟩
  have hext := hs _ (extends_someExt s.witness)
  have hmem : ∀ w, mentions e w → ¬ known s.witness w → ∃ q, (q, w) ∈ acc.linear := by
    intro w hw hk
    rw [← hext.1]
    exact unknowns_of_mentions hok hw hk
  have hunk : ∀ t ∈ acc.linear, mentions e t.2 ∧ ¬ known s.witness t.2 := by
    rw [← hext.1]
    exact fun t ht => mem_unknowns ht
  rcases acc with ⟨_ | ⟨⟨q, w⟩, _ | ⟨t, l⟩⟩, c⟩
  · left
    refine ⟨fun w hw => ?_, (ok_inj.mp h2).symm⟩
    by_contra hk
    obtain ⟨q, hq⟩ := hmem w hw hk
    cases hq
  · right
    obtain ⟨v, h3, h4⟩ := bind_ok h2
    have h3 : plainSolveEquation q c = .ok v := h3
    unfold plainSolveEquation at h3
    split_ifs at h3 with hq
    have hv := ok_inj.mp h3
    have hw := hunk (q, w) (by simp)
    refine ⟨w, v, by simpa [known] using hw.2, hw.1, ?_, (ok_inj.mp h4).symm, ?_⟩
    · intro u hu
      by_contra hc
      push Not at hc
      obtain ⟨q', hq'⟩ := hmem u hu hc.1
      simp only [List.mem_singleton, Prod.mk.injEq] at hq'
      exact hc.2 hq'.2
    · intro a ha
      rw [(hs a ha).2, ← hv]
      simp only [lin_cons, lin_nil]
      constructor
      · intro h
        rw [eq_div_iff hq]
        linear_combination h
      · intro h
        rw [h]
        field_simp
        ring
  · cases h2

omit [Fact p.Prime] in
theorem lookupAll_some {V : Type} {W : Nat → Option V} : ∀ {ws : List Nat} {vs : List V}, lookupAll W ws = some vs →
    List.Forall₂ (fun w v => W w = some v) ws vs
  | [], vs, h => by
    cases h
    exact .nil
  | w :: ws, vs, h => by
    unfold lookupAll at h
    split at h
    · rename_i v vs' h1 h2
      cases h
      exact .cons h1 (lookupAll_some h2)
    · cases h

omit [Fact p.Prime] in
theorem lookupAll_known {V : Type} {W : Nat → Option V} : ∀ {ws : List Nat}, (∀ w ∈ ws, known W w) →
    ∃ vs, lookupAll W ws = some vs
  | [], _ => ⟨[], rfl⟩
  | w :: ws, h => by
    obtain ⟨v, hv⟩ := exists_of_known (h w List.mem_cons_self)
    obtain ⟨vs, hvs⟩ := lookupAll_known (W := W) (ws := ws) fun u hu => h u (List.mem_cons_of_mem _ hu)
    exact ⟨v :: vs, by simp [lookupAll, hv, hvs]⟩

omit [Fact p.Prime] in
theorem lookupAll_map {a : Assignment p} {W : Nat → Option (ZMod p)} (ha : Extends a W) {ws : List Nat}
    {vs : List (ZMod p)} (h : lookupAll W ws = some vs) : vs = ws.map a := by
  have := lookupAll_some h
  clear h
  induction this with
  | nil => rfl
  | @cons w v ws vs h1 h2 ih => simp only [List.map_cons, ha _ _ h1, ih]

end Verif.Acvm
