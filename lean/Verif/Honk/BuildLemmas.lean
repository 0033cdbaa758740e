import Verif.Honk.BuildAcir
import Verif.Honk.TraceLemmas
import Mathlib.Algebra.Field.Basic
import Mathlib.Data.List.GetD
import Mathlib.Tactic.Ring
import Mathlib.Tactic.LinearCombination

/-!
# Lemmas about the construction of circuits
-/

namespace Verif.Honk.Draft

open Acvm (Expression Input Opcode)

theorem bind_ok {α β : Type} {x : Except Err α} {f : α → Except Err β} {b : β} :
    (x >>= f) = .ok b ↔ ∃ a, x = .ok a ∧ f a = .ok b := by
  cases x with
  | error e =>
    constructor
    · intro h; cases h
    · rintro ⟨_, h, _⟩; cases h
  | ok a =>
    constructor
    · intro h; exact ⟨a, rfl, h⟩
    · rintro ⟨_, h, h'⟩; cases h; exact h'

theorem pure_ok {α : Type} {a b : α} : (pure a : Except Err α) = .ok b ↔ a = b :=
  ⟨fun h => Except.ok.inj h, fun h => by rw [h]; rfl⟩

theorem check_ok {b : Bool} {m : String} {u : Unit} : check b m = .ok u ↔ b = true := by
  cases b <;> simp [check]

theorem index_iff {α : Type} {l : List α} {i : Nat} {x : α} : index l i = .ok x ↔ l[i]? = some x := by
  refine ⟨getElem_of_index, fun h => ?_⟩
  simp [index, h]

section

variable {F : Type}

/-- The real variable of a variable. -/
def rl (s : Draft F) (v : Nat) : Nat := s.real.getD v 0

/-- The tag of a real variable. -/
def tg (s : Draft F) (v : Nat) : Nat := s.tags.getD v 0

theorem index_real {s : Draft F} {v r : Nat} (h : index s.real v = .ok r) : v < s.real.length ∧ s.rl v = r := by
  have h := index_iff.1 h
  refine ⟨(List.getElem?_eq_some_iff.1 h).1, ?_⟩
  rw [rl, List.getD_eq_getElem?_getD, h]; rfl

theorem index_tags {s : Draft F} {v r : Nat} (h : index s.tags v = .ok r) : v < s.tags.length ∧ s.tg v = r := by
  have h := index_iff.1 h
  refine ⟨(List.getElem?_eq_some_iff.1 h).1, ?_⟩
  rw [tg, List.getD_eq_getElem?_getD, h]; rfl

/-- The state invariant of the construction. -/
structure Inv (s : Draft F) : Prop where
  real_len : s.real.length = s.vars.length
  tags_len : s.tags.length = s.vars.length
  zero_lt : s.zeroIdx < s.vars.length
  real_lt : ∀ v < s.vars.length, s.rl v < s.vars.length
  real_idem : ∀ v < s.vars.length, s.rl (s.rl v) = s.rl v
  list_tag : ∀ l ∈ s.rangeLists, ∀ v ∈ l.vars, v < s.vars.length ∧ s.tg (s.rl v) = l.tag
  tag_list : ∀ v < s.vars.length, s.tg (s.rl v) ≠ 0 → ∃ l ∈ s.rangeLists, s.tg (s.rl v) = l.tag ∧ ∃ v' ∈ l.vars, s.rl v' = s.rl v
  nums : (s.rangeLists.flatMap fun l => [l.tag, l.tau]).Nodup
  targets : (s.rangeLists.map (·.target)).Nodup
  small : ∀ l ∈ s.rangeLists, l.target < 3 * s.vars.length
  nums_le : ∀ l ∈ s.rangeLists, (0 < l.tag ∧ l.tag ≤ s.tag) ∧ 0 < l.tau ∧ l.tau ≤ s.tag
  tau_zero : s.tau.lookup 0 = some 0
  tau : ∀ l ∈ s.rangeLists, s.tau.lookup l.tag = some l.tau ∧ s.tau.lookup l.tau = some l.tag

/-- What a state keeps of an earlier one. -/
structure Ext (s t : Draft F) : Prop where
  arith : s.arith <+: t.arith
  len : s.vars.length ≤ t.vars.length
  zero : t.zeroIdx = s.zeroIdx
  inputs : t.inputs = s.inputs
  ranges : ∀ l ∈ s.rangeLists, ∃ l' ∈ t.rangeLists, l'.target = l.target ∧ l.vars ⊆ l'.vars
  real : ∀ u < s.vars.length, ∀ v < s.vars.length, s.rl u = s.rl v → t.rl u = t.rl v

theorem Ext.refl (s : Draft F) : Ext s s :=
  ⟨List.prefix_rfl, le_rfl, rfl, rfl, fun l hl => ⟨l, hl, rfl, fun _ h => h⟩, fun _ _ _ _ h => h⟩

theorem Ext.trans {s t u : Draft F} (h : Ext s t) (h' : Ext t u) : Ext s u where
  arith := h.arith.trans h'.arith
  len := h.len.trans h'.len
  zero := h'.zero.trans h.zero
  inputs := h'.inputs.trans h.inputs
  ranges l hl := by
    obtain ⟨l', hl', e, hs⟩ := h.ranges l hl
    obtain ⟨l'', hl'', e', hs'⟩ := h'.ranges l' hl'
    exact ⟨l'', hl'', e'.trans e, fun _ hv => hs' (hs hv)⟩
  real u hu v hv e := h'.real u (lt_of_lt_of_le hu h.len) v (lt_of_lt_of_le hv h.len) (h.real u hu v hv e)

/-! ## Adding variables -/

/-- Several new variables with a tag. -/
def addMany (s : Draft F) (xs : List F) (t : Nat) : Draft F :=
  { s with vars := s.vars ++ xs, real := s.real ++ List.range' s.vars.length xs.length, next := s.next ++ List.replicate xs.length none,
           prev := s.prev ++ List.replicate xs.length none, tags := s.tags ++ List.replicate xs.length t }

theorem addVariable_eq (s : Draft F) (x : F) : s.addVariable x = s.addMany [x] 0 := by
  simp [addVariable, addMany, List.range'_one]

theorem addMany_nil (s : Draft F) (t : Nat) : s.addMany [] t = s := by simp [addMany]

theorem addMany_append (s : Draft F) (xs ys : List F) (t : Nat) : (s.addMany xs t).addMany ys t = s.addMany (xs ++ ys) t := by
  simp only [addMany, List.append_assoc, List.length_append, List.replicate_append_replicate, mk.injEq, true_and, and_true]
  rw [List.range'_append_1]

theorem addVariables_eq (s : Draft F) (xs : List F) : xs.foldl addVariable s = s.addMany xs 0 := by
  induction xs generalizing s with
  | nil => simp [addMany_nil]
  | cons x xs ih => rw [List.foldl_cons, addVariable_eq, ih, addMany_append]; rfl

theorem addTagged_eq {s : Draft F} {t : Nat} (h1 : s.real.length = s.vars.length) (h2 : s.tags.length = s.vars.length) (ht : t ≤ s.tag)
    (h0 : t ≠ 0) (x : F) : s.addTagged t x = .ok (s.addMany [x] t) := by
  have e1 : index (s.real ++ [s.vars.length]) s.vars.length = .ok s.vars.length := index_iff.2 (by simp [← h1])
  have e2 : index (s.tags ++ [0]) s.vars.length = .ok 0 := index_iff.2 (by simp [← h2])
  refine (bind_ok.2 ⟨(), ?_, bind_ok.2 ⟨_, e1, bind_ok.2 ⟨_, e2, ?_⟩⟩⟩ : assignTag (s.addVariable x) s.vars.length t = _)
  · exact check_ok.2 (decide_eq_true ht)
  · rw [if_neg (Ne.symm h0)]
    refine bind_ok.2 ⟨(), check_ok.2 (by simp), ?_⟩
    simp [addMany, addVariable, List.range'_one, ← h2]
    rfl

theorem addTagged_fold {t : Nat} (h0 : t ≠ 0) (xs : List F) : ∀ {s : Draft F}, s.real.length = s.vars.length →
    s.tags.length = s.vars.length → t ≤ s.tag → xs.foldlM (fun s x => s.addTagged t x) s = .ok (s.addMany xs t) := by
  induction xs with
  | nil => intro s _ _ _; rw [addMany_nil]; rfl
  | cons x xs ih =>
    intro s h1 h2 ht
    rw [List.foldlM_cons, addTagged_eq h1 h2 ht h0]
    refine (ih (s := s.addMany [x] t) ?_ ?_ ht).trans ?_
    · simp [addMany, h1]
    · simp [addMany, h2]
    · rw [addMany_append]; rfl

theorem rl_addMany_old {s : Draft F} (h : s.real.length = s.vars.length) (xs : List F) (t : Nat) {v : Nat} (hv : v < s.vars.length) :
    (s.addMany xs t).rl v = s.rl v := by
  simp only [rl, addMany]
  rw [List.getD_append _ _ _ _ (by omega)]

theorem rl_addMany_new {s : Draft F} (h : s.real.length = s.vars.length) (xs : List F) (t : Nat) {v : Nat} (hv : s.vars.length ≤ v)
    (hv' : v < s.vars.length + xs.length) : (s.addMany xs t).rl v = v := by
  simp only [rl, addMany]
  rw [List.getD_append_right _ _ _ _ (by omega), List.getD_eq_getElem?_getD, List.getElem?_range' (by omega)]
  simp; omega

theorem tg_addMany_old {s : Draft F} (h : s.tags.length = s.vars.length) (xs : List F) (t : Nat) {v : Nat} (hv : v < s.vars.length) :
    (s.addMany xs t).tg v = s.tg v := by
  simp only [tg, addMany]
  rw [List.getD_append _ _ _ _ (by omega)]

theorem tg_addMany_new {s : Draft F} (h : s.tags.length = s.vars.length) (xs : List F) (t : Nat) {v : Nat} (hv : s.vars.length ≤ v)
    (hv' : v < s.vars.length + xs.length) : (s.addMany xs t).tg v = t := by
  simp only [tg, addMany]
  rw [List.getD_append_right _ _ _ _ (by omega), List.getD_eq_getElem?_getD, List.getElem?_replicate, if_pos (by omega)]
  rfl

theorem length_addMany (s : Draft F) (xs : List F) (t : Nat) : (s.addMany xs t).vars.length = s.vars.length + xs.length := by
  simp [addMany]

theorem Inv.addMany {s : Draft F} (h : Inv s) (xs : List F) : Inv (s.addMany xs 0) := by
  have hl := length_addMany s xs 0
  constructor
  · simp [Draft.addMany, h.real_len]
  · simp [Draft.addMany, h.tags_len]
  · rw [hl]; exact Nat.lt_add_right _ h.zero_lt
  · intro v hv
    rw [hl] at hv ⊢
    by_cases hv' : v < s.vars.length
    · rw [rl_addMany_old h.real_len _ _ hv']; exact Nat.lt_add_right _ (h.real_lt v hv')
    · rw [rl_addMany_new h.real_len _ _ (by omega) hv]; exact hv
  · intro v hv
    rw [hl] at hv
    by_cases hv' : v < s.vars.length
    · rw [rl_addMany_old h.real_len _ _ hv', rl_addMany_old h.real_len _ _ (h.real_lt v hv')]; exact h.real_idem v hv'
    · rw [rl_addMany_new h.real_len _ _ (by omega) hv, rl_addMany_new h.real_len _ _ (by omega) hv]
  · intro l hl' v hv
    obtain ⟨h1, h2⟩ := h.list_tag l hl' v hv
    refine ⟨by omega, ?_⟩
    rw [rl_addMany_old h.real_len _ _ h1, tg_addMany_old h.tags_len _ _ (h.real_lt v h1)]; exact h2
  · intro v hv ht
    rw [hl] at hv
    by_cases hv' : v < s.vars.length
    · rw [rl_addMany_old h.real_len _ _ hv', tg_addMany_old h.tags_len _ _ (h.real_lt v hv')] at ht ⊢
      obtain ⟨l, hl, h1, v', hv1, h2⟩ := h.tag_list v hv' ht
      exact ⟨l, hl, h1, v', hv1, by rw [rl_addMany_old h.real_len _ _ (h.list_tag l hl v' hv1).1]; exact h2⟩
    · rw [rl_addMany_new h.real_len _ _ (by omega) hv, tg_addMany_new h.tags_len _ _ (by omega) hv] at ht
      exact absurd rfl ht
  · exact h.nums
  · exact h.targets
  · intro l hl'
    have := h.small l hl'
    omega
  · exact h.nums_le
  · exact h.tau_zero
  · exact h.tau

theorem ext_addMany {s : Draft F} (h : s.real.length = s.vars.length) (xs : List F) (t : Nat) : Ext s (s.addMany xs t) where
  arith := List.prefix_rfl
  len := by rw [length_addMany]; omega
  zero := rfl
  inputs := rfl
  ranges l hl := ⟨l, hl, rfl, fun _ h => h⟩
  real u hu v hv e := by rw [rl_addMany_old h _ _ hu, rl_addMany_old h _ _ hv]; exact e

theorem Inv.addVariable {s : Draft F} (h : Inv s) (x : F) : Inv (s.addVariable x) := by
  rw [addVariable_eq]; exact h.addMany [x]

theorem ext_addVariable {s : Draft F} (h : Inv s) (x : F) : Ext s (s.addVariable x) := by
  rw [addVariable_eq]; exact ext_addMany h.real_len [x] 0

theorem length_addVariable (s : Draft F) (x : F) : (s.addVariable x).vars.length = s.vars.length + 1 := by simp [Draft.addVariable]

/-! ## Adding gates -/

/-- Only rows are added. -/
theorem Inv.rows {s : Draft F} (h : Inv s) (as ds : List (Gate F)) : Inv { s with arith := s.arith ++ as, delta := s.delta ++ ds } :=
  ⟨h.1, h.2, h.3, h.4, h.5, h.6, h.7, h.8, h.9, h.10, h.11, h.12, h.13⟩

theorem ext_rows (s : Draft F) (as ds : List (Gate F)) : Ext s { s with arith := s.arith ++ as, delta := s.delta ++ ds } :=
  ⟨List.prefix_append _ _, le_rfl, rfl, rfl, fun l hl => ⟨l, hl, rfl, fun _ h => h⟩, fun _ _ _ _ h => h⟩

theorem pushArith_eq (s : Draft F) (g : Gate F) : s.pushArith g = { s with arith := s.arith ++ [g], delta := s.delta ++ [] } := by
  simp [pushArith]

theorem pushDelta_eq (s : Draft F) (g : Gate F) : s.pushDelta g = { s with arith := s.arith ++ [], delta := s.delta ++ [g] } := by
  simp [pushDelta]

theorem Inv.pushArith {s : Draft F} (h : Inv s) (g : Gate F) : Inv (s.pushArith g) := by rw [pushArith_eq]; exact h.rows _ _

theorem ext_pushArith (s : Draft F) (g : Gate F) : Ext s (s.pushArith g) := by rw [pushArith_eq]; exact ext_rows _ _ _

theorem checkValid_ok {s : Draft F} {vs : List Nat} {u : Unit} : s.checkValid vs = .ok u ↔ ∀ v ∈ vs, v < s.vars.length := by
  rw [checkValid, check_ok]; simp

end

section

variable {F : Type} [Field F]

/-- The linear part of a gate. -/
def lin (w : Nat → F) (g : Gate F) : F :=
  g.q1 * w (g.row 0) + g.q2 * w (g.row 1) + g.q3 * w (g.row 2) + g.q4 * w (g.row 3) + g.qc

/-- The values satisfy the rows of the block `arithmetic`. -/
structure ArithOk (w : Nat → F) (gs : List (Gate F)) : Prop where
  one : ∀ g ∈ gs, g.qArith = 1 → g.qm * w (g.row 0) * w (g.row 1) + lin w g = 0
  two : ∀ i g g', gs[i]? = some g → gs[i + 1]? = some g' → g.qArith = 2 →
    ∀ k, g.qm = k * 2 → k * w (g.row 0) * w (g.row 1) + lin w g + w (g'.row 3) = 0

/-- The values satisfy everything that has been demanded so far. -/
structure Good (w : Nat → F) (t : Draft F) : Prop where
  arith : ArithOk w t.arith
  ranges : ∀ l ∈ t.rangeLists, ∀ v ∈ l.vars, ∃ k ≤ l.target, w v = (k : F)
  real : ∀ u < t.vars.length, ∀ v < t.vars.length, t.rl u = t.rl v → w u = w v
  zero : w t.zeroIdx = 0

/-! ## Single gates -/

theorem bigGate_eq {s s' : Draft F} {q : Quad F Nat} {b : Bool} (h : s.bigGate q b = .ok s') :
    (q.a < s.vars.length ∧ q.b < s.vars.length ∧ q.c < s.vars.length ∧ q.d < s.vars.length) ∧
    s' = s.pushArith ⟨![q.a, q.b, q.c, q.d], if b then q.mul * 2 else q.mul, q.qa, q.qb, q.qc, q.qd, q.const, if b then 2 else 1, 0⟩ := by
  obtain ⟨u, h1, h2⟩ := bind_ok.1 h
  rw [checkValid_ok] at h1
  exact ⟨by simpa using h1, (pure_ok.1 h2).symm⟩

/-- The value of a quad. -/
def Quad.value {ι : Type} (w : ι → F) (q : Quad F ι) : F :=
  q.mul * w q.a * w q.b + q.qa * w q.a + q.qb * w q.b + q.qc * w q.c + q.qd * w q.d + q.const

theorem bigGate_meaning {s s' t : Draft F} {q : Quad F Nat} (h : s.bigGate q false = .ok s') (he : Ext s' t) {w : Nat → F} (hw : Good w t) :
    q.value w = 0 := by
  obtain ⟨-, rfl⟩ := bigGate_eq h
  have := hw.arith.one _ (he.arith.subset (List.mem_append_right _ (List.mem_singleton.2 rfl))) (by simp)
  simp only [Bool.false_eq_true, if_false, lin, Matrix.cons_val_zero, Matrix.cons_val_one, Matrix.cons_val] at this
  rw [Quad.value, ← this]; ring

/-- A gate that passes its value on to the fourth wire of the next gate. -/
theorem bigGate_next {s s' t : Draft F} {q : Quad F Nat} {g : Gate F} (h : s.bigGate q true = .ok s')
    (he : s'.arith ++ [g] <+: t.arith) {w : Nat → F} (hw : Good w t) : q.value w + w (g.row 3) = 0 := by
  obtain ⟨-, rfl⟩ := bigGate_eq h
  obtain ⟨r, hr⟩ := he
  simp only [pushArith, if_true] at hr
  have := hw.arith.two s.arith.length _ g (by rw [← hr]; simp; rfl) (by rw [← hr]; simp) rfl q.mul rfl
  simp only [lin, Matrix.cons_val_zero, Matrix.cons_val_one, Matrix.cons_val] at this
  rw [Quad.value, ← this]; ring

theorem bigGate_inv {s s' : Draft F} {q : Quad F Nat} {b : Bool} (h : s.bigGate q b = .ok s') (hi : Inv s) : Inv s' ∧ Ext s s' := by
  obtain ⟨-, rfl⟩ := bigGate_eq h
  exact ⟨hi.pushArith _, ext_pushArith _ _⟩

/-! ## Range lists -/

theorem lookup_cons_ne {k a : Nat} {b : Nat} {l : List (Nat × Nat)} (h : k ≠ a) : ((a, b) :: l).lookup k = l.lookup k := by
  rw [List.lookup_cons, beq_eq_false_iff_ne.2 h]

theorem chunks_mem {l : List Nat} (h : l.length % 4 = 0) {x : Nat} (hx : x ∈ l) : ∃ row ∈ chunks l, ∃ j, row j = x := by
  obtain ⟨i, hi, rfl⟩ := List.getElem_of_mem hx
  refine ⟨_, List.mem_map.2 ⟨i / 4, List.mem_range.2 (by omega), rfl⟩, ⟨i % 4, by omega⟩, ?_⟩
  have : 4 * (i / 4) + i % 4 = i := by omega
  simp only [this]
  rw [List.getD_eq_getElem?_getD, List.getElem?_eq_getElem hi]; rfl

/-- The values of a range list. -/
def rangeValues (target : Nat) : List Nat := (List.range (target / 3 + 1)).map (· * 3) ++ [target]

/-- The circuit after a list has been made. -/
def withList (s : Draft F) (target : Nat) : Draft F :=
  let vs := List.range' s.vars.length (rangeValues target).length
  let s' := { s with tag := s.tag + 2, tau := (s.tag + 2, s.tag + 1) :: (s.tag + 1, s.tag + 2) :: s.tau }.addMany
    ((rangeValues target).map Nat.cast) (s.tag + 1)
  { s' with arith := s'.arith ++ (chunks (vs ++ List.replicate ((4 - vs.length % 4) % 4) s.zeroIdx)).map freeGate }

theorem createRangeList_eq {s : Draft F} (hi : Inv s) (target : Nat) : s.createRangeList target =
    .ok (s.withList target, ⟨target, s.tag + 1, s.tag + 2, List.range' s.vars.length (rangeValues target).length⟩) := by
  refine bind_ok.2 ⟨_, addTagged_fold (by omega) _ hi.real_len hi.tags_len (by simp), bind_ok.2 ⟨s.withList target, ?_, rfl⟩⟩
  refine bind_ok.2 ⟨(), ?_, bind_ok.2 ⟨(), ?_, rfl⟩⟩ <;> rw [checkValid_ok, length_addMany]
  · intro v hv
    rw [List.mem_range'_1] at hv
    exact lt_of_lt_of_eq hv.2 (by rw [List.length_map])
  · intro v hv
    rcases List.mem_append.1 hv with hv | hv
    · rw [List.mem_range'_1] at hv
      exact lt_of_lt_of_eq hv.2 (by rw [List.length_map])
    · rw [List.eq_of_mem_replicate hv]; exact Nat.lt_add_right _ hi.zero_lt

theorem insertRange_perm {l : RangeList} : ∀ {ls : List RangeList}, (∀ x ∈ ls, x.target ≠ l.target) → (insertRange l ls).Perm (l :: ls)
  | [], _ => List.Perm.refl _
  | x :: xs, h => by
    rw [insertRange]
    by_cases h1 : l.target < x.target
    · rw [if_pos h1]
    · rw [if_neg h1, if_pos (lt_of_le_of_ne (not_lt.1 h1) (h x List.mem_cons_self))]
      exact ((insertRange_perm fun y hy => h y (List.mem_cons_of_mem _ hy)).cons x).trans (List.Perm.swap _ _ _)

omit [Field F] in
theorem Inv.nums_disjoint {s : Draft F} (h : Inv s) {l l' : RangeList} (hl : l ∈ s.rangeLists) (hl' : l' ∈ s.rangeLists) (e : l ≠ l') :
    List.Disjoint [l.tag, l.tau] [l'.tag, l'.tau] := by
  have : Std.Symm (Function.onFun List.Disjoint fun l : RangeList => [l.tag, l.tau]) := ⟨fun _ _ h => h.symm⟩
  exact (List.nodup_flatMap.1 h.nums).2.forall hl hl' e

omit [Field F] in
theorem Inv.tag_inj {s : Draft F} (h : Inv s) {l l' : RangeList} (hl : l ∈ s.rangeLists) (hl' : l' ∈ s.rangeLists) (e : l.tag = l'.tag) :
    l = l' := by
  by_contra hne
  exact h.nums_disjoint hl hl' hne (List.mem_cons_self) (by rw [e]; exact List.mem_cons_self)

omit [Field F] in
theorem Inv.tag_ne_tau {s : Draft F} (h : Inv s) {l l' : RangeList} (hl : l ∈ s.rangeLists) (hl' : l' ∈ s.rangeLists) : l.tag ≠ l'.tau := by
  intro e
  by_cases hne : l = l'
  · subst hne
    have := (List.nodup_flatMap.1 h.nums).1 l hl
    simp [e] at this
  · exact h.nums_disjoint hl hl' hne (List.mem_cons_self) (by rw [e]; simp)

/-- The circuit after a list has been made and kept. -/
def withRange (s : Draft F) (target : Nat) : Draft F :=
  { s.withList target with rangeLists := (insertRange
      (RangeList.mk target (s.tag + 1) (s.tag + 2) (List.range' s.vars.length (rangeValues target).length)) s.rangeLists) }

theorem withRange_length (s : Draft F) (target : Nat) : (s.withRange target).vars.length = s.vars.length + (rangeValues target).length := by
  show (List.length (_ ++ _)) = _
  rw [List.length_append, List.length_map]

theorem withRange_rl {s : Draft F} (h : Inv s) (target : Nat) {v : Nat} (hv : v < s.vars.length) : (s.withRange target).rl v = s.rl v :=
  rl_addMany_old (s := { s with tag := s.tag + 2, tau := (s.tag + 2, s.tag + 1) :: (s.tag + 1, s.tag + 2) :: s.tau }) h.real_len _ (s.tag + 1) hv

theorem withRange_tg {s : Draft F} (h : Inv s) (target : Nat) {v : Nat} (hv : v < s.vars.length) : (s.withRange target).tg v = s.tg v :=
  tg_addMany_old (s := { s with tag := s.tag + 2, tau := (s.tag + 2, s.tag + 1) :: (s.tag + 1, s.tag + 2) :: s.tau }) h.tags_len _ _ hv

theorem withRange_rl_new {s : Draft F} (h : Inv s) (target : Nat) {v : Nat} (hv : s.vars.length ≤ v)
    (hv' : v < s.vars.length + (rangeValues target).length) : (s.withRange target).rl v = v :=
  rl_addMany_new (s := { s with tag := s.tag + 2, tau := (s.tag + 2, s.tag + 1) :: (s.tag + 1, s.tag + 2) :: s.tau }) h.real_len _ (s.tag + 1) hv
    (by rw [List.length_map]; exact hv')

theorem withRange_tg_new {s : Draft F} (h : Inv s) (target : Nat) {v : Nat} (hv : s.vars.length ≤ v)
    (hv' : v < s.vars.length + (rangeValues target).length) : (s.withRange target).tg v = s.tag + 1 :=
  tg_addMany_new (s := { s with tag := s.tag + 2, tau := (s.tag + 2, s.tag + 1) :: (s.tag + 1, s.tag + 2) :: s.tau }) h.tags_len _ _ hv
    (by rw [List.length_map]; exact hv')

theorem withRange_inv {s : Draft F} (h : Inv s) {target : Nat} (hf : ∀ x ∈ s.rangeLists, x.target ≠ target) :
    Inv (s.withRange target) ∧ Ext s (s.withRange target) := by
  have hp := insertRange_perm (l := ⟨target, s.tag + 1, s.tag + 2, List.range' s.vars.length (rangeValues target).length⟩) hf
  have hm : ∀ l, l ∈ (s.withRange target).rangeLists ↔
      l = ⟨target, s.tag + 1, s.tag + 2, List.range' s.vars.length (rangeValues target).length⟩ ∨ l ∈ s.rangeLists := fun l =>
    hp.mem_iff.trans List.mem_cons
  have hlen := withRange_length s target
  refine ⟨⟨?_, ?_, ?_, ?_, ?_, ?_, ?_, ?_, ?_, ?_, ?_, ?_, ?_⟩, ⟨?_, ?_, ?_, ?_, ?_, ?_⟩⟩
  · rw [hlen]; simp [withRange, withList, addMany, h.real_len]
  · rw [hlen]; simp [withRange, withList, addMany, h.tags_len]
  · rw [hlen]; exact Nat.lt_add_right _ h.zero_lt
  · intro v hv
    rw [hlen] at hv ⊢
    by_cases hv' : v < s.vars.length
    · rw [withRange_rl h _ hv']; exact Nat.lt_add_right _ (h.real_lt v hv')
    · rw [withRange_rl_new h _ (not_lt.1 hv') hv]; exact hv
  · intro v hv
    rw [hlen] at hv
    by_cases hv' : v < s.vars.length
    · rw [withRange_rl h _ hv', withRange_rl h _ (h.real_lt v hv')]; exact h.real_idem v hv'
    · rw [withRange_rl_new h _ (not_lt.1 hv') hv, withRange_rl_new h _ (not_lt.1 hv') hv]
  · intro l hl v hv
    rw [hlen]
    rcases (hm l).1 hl with rfl | hl
    · rw [List.mem_range'_1] at hv
      exact ⟨hv.2, by rw [withRange_rl_new h _ hv.1 hv.2, withRange_tg_new h _ hv.1 hv.2]⟩
    · obtain ⟨h1, h2⟩ := h.list_tag l hl v hv
      exact ⟨Nat.lt_add_right _ h1, by rw [withRange_rl h _ h1, withRange_tg h _ (h.real_lt v h1)]; exact h2⟩
  · intro v hv ht
    rw [hlen] at hv
    by_cases hv' : v < s.vars.length
    · rw [withRange_rl h _ hv', withRange_tg h _ (h.real_lt v hv')] at ht ⊢
      obtain ⟨l, hl, h1, v', hv1, h2⟩ := h.tag_list v hv' ht
      exact ⟨l, (hm l).2 (.inr hl), h1, v', hv1, by rw [withRange_rl h _ (h.list_tag l hl v' hv1).1]; exact h2⟩
    · rw [withRange_rl_new h _ (not_lt.1 hv') hv, withRange_tg_new h _ (not_lt.1 hv') hv]
      exact ⟨_, (hm _).2 (.inl rfl), rfl, v, List.mem_range'_1.2 ⟨not_lt.1 hv', hv⟩, withRange_rl_new h _ (not_lt.1 hv') hv⟩
  · refine (hp.flatMap_right _).nodup_iff.2 ?_
    have hn := h.nums
    have hle : ∀ x ∈ s.rangeLists.flatMap fun l => [l.tag, l.tau], x ≤ s.tag := by
      intro x hx
      obtain ⟨l, hl, hx⟩ := List.mem_flatMap.1 hx
      have := h.nums_le l hl
      simp at hx; omega
    rw [List.flatMap_cons]
    refine List.nodup_append'.2 ⟨by simp, hn, fun x hx hx' => ?_⟩
    have := hle x hx'
    simp at hx; omega
  · refine (hp.map _).nodup_iff.2 (List.nodup_cons.2 ⟨fun hx => ?_, h.targets⟩)
    obtain ⟨x, hx, e⟩ := List.mem_map.1 hx
    exact hf x hx e
  · intro l hl
    rw [hlen]
    rcases (hm l).1 hl with rfl | hl
    · simp [rangeValues]; omega
    · have := h.small l hl; omega
  · intro l hl
    show (0 < l.tag ∧ l.tag ≤ s.tag + 2) ∧ 0 < l.tau ∧ l.tau ≤ s.tag + 2
    rcases (hm l).1 hl with rfl | hl
    · simp
    · have := h.nums_le l hl; omega
  · show List.lookup 0 ((s.tag + 2, s.tag + 1) :: (s.tag + 1, s.tag + 2) :: s.tau) = _
    rw [lookup_cons_ne (by omega), lookup_cons_ne (by omega)]; exact h.tau_zero
  · intro l hl
    show List.lookup _ ((s.tag + 2, s.tag + 1) :: (s.tag + 1, s.tag + 2) :: s.tau) = _ ∧
      List.lookup _ ((s.tag + 2, s.tag + 1) :: (s.tag + 1, s.tag + 2) :: s.tau) = _
    rcases (hm l).1 hl with rfl | hl
    · exact ⟨by rw [lookup_cons_ne (by simp)]; simp, by simp⟩
    · have := h.nums_le l hl
      rw [lookup_cons_ne (by omega), lookup_cons_ne (by omega), lookup_cons_ne (by omega), lookup_cons_ne (by omega)]; exact h.tau l hl
  · exact List.prefix_append _ _
  · rw [hlen]; omega
  · rfl
  · rfl
  · exact fun l hl => ⟨l, (hm l).2 (.inr hl), rfl, fun _ h => h⟩
  · intro u hu v hv e
    rw [withRange_rl h _ hu, withRange_rl h _ hv]; exact e

theorem ensureRange_inv {s s' : Draft F} {target : Nat} (h : Inv s) (he : s.ensureRange target = .ok s') : Inv s' ∧ Ext s s' := by
  rw [ensureRange] at he
  cases hf : s.rangeLists.find? (·.target = target) with
  | some l => rw [hf] at he; cases he; exact ⟨h, Ext.refl _⟩
  | none =>
    rw [hf] at he
    rw [createRangeList_eq h] at he
    cases he
    exact withRange_inv h fun x hx => by simpa using List.find?_eq_none.1 hf x hx

end

end Verif.Honk.Draft
