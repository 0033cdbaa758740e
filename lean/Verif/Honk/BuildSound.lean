import Verif.Honk.BuildSort

/-!
# What the circuit of a program says
-/

namespace Verif.Honk.Draft

open Acvm (Expression Input Opcode)

variable {F : Type} [Field F]

/-! ## Single steps -/

theorem fixWitness_spec {s s' : Draft F} {v : Nat} {x : F} (h : Inv s) (hr : s.fixWitness v x = .ok s') :
    Inv s' ∧ Ext s s' ∧ v < s.vars.length ∧ s'.inputs = s.inputs ∧ s'.vars = s.vars ∧
      ∀ t, Ext s' t → ∀ w : Nat → F, Good w t → w v = x := by
  obtain ⟨_, h1, hr⟩ := bind_ok.1 hr
  cases hr
  refine ⟨h.pushArith _, ext_pushArith _ _, by simpa using checkValid_ok.1 h1, rfl, rfl, fun t ht w hw => ?_⟩
  have := hw.arith.one _ (ht.arith.subset (List.mem_append_right _ (List.mem_singleton.2 rfl))) rfl
  simp only [lin, Matrix.cons_val_zero, Matrix.cons_val_one, Matrix.cons_val] at this
  linear_combination this

theorem Inv.inputs {s : Draft F} (h : Inv s) (is : List Nat) : Inv { s with inputs := is } :=
  ⟨h.1, h.2, h.3, h.4, h.5, h.6, h.7, h.8, h.9, h.10, h.11, h.12, h.13⟩

theorem Ext.withInputs {s t : Draft F} (h : Ext s t) (is : List Nat) : Ext { s with inputs := is } { t with inputs := is } :=
  ⟨h.1, h.2, h.3, rfl, h.5, h.6⟩

theorem Good.inputs {w : Nat → F} {t : Draft F} (h : Good w t) (is : List Nat) : Good w { t with inputs := is } :=
  ⟨h.1, h.2, h.3, h.4⟩

theorem defaultInputs_spec (l : List Nat) : ∀ {s s' : Draft F}, Inv s →
    l.foldlM (fun s _ => (s.addPublicVariable 0).fixWitness s.vars.length 0) s = .ok s' →
    Inv s' ∧ Ext s { s' with inputs := s.inputs } ∧ ∃ is, s'.inputs = s.inputs ++ is ∧ is.length = l.length ∧ (∀ i ∈ is, i < s'.vars.length) ∧
      ∀ t, Ext s' t → ∀ w : Nat → F, Good w t → ∀ i ∈ is, w i = 0 := by
  induction l with
  | nil => intro s s' h hr; cases hr; exact ⟨h, Ext.refl _, [], by simp⟩
  | cons x l ih =>
    intro s s' h hr
    rw [List.foldlM_cons] at hr
    obtain ⟨s1, h1, hr⟩ := bind_ok.1 hr
    have i0 : Inv (s.addPublicVariable 0) := (h.addVariable 0).inputs _
    obtain ⟨i1, e1, hv, hin, hvars, m1⟩ := fixWitness_spec i0 h1
    obtain ⟨i2, e2, is, his, hlen, hlt, m2⟩ := ih i1 hr
    have e0 : Ext s { s1 with inputs := s.inputs } :=
      (ext_addVariable h 0).trans (e1.withInputs s.inputs)
    refine ⟨i2, e0.trans (e2.withInputs s.inputs), s.vars.length :: is, ?_, by simp [hlen], ?_, ?_⟩
    · rw [his, hin]; simp [addPublicVariable]
    · intro i hi
      rcases List.mem_cons.1 hi with rfl | hi
      · exact lt_of_lt_of_le (hvars ▸ hv) e2.len
      · exact hlt i hi
    · intro t ht w hw i hi
      rcases List.mem_cons.1 hi with rfl | hi
      · exact m1 { t with inputs := s1.inputs } (e2.trans (ht.withInputs s1.inputs)) w (hw.inputs _)
      · exact m2 t ht w hw i hi

theorem fold_spec {α : Type} {f : Draft F → α → Except Err (Draft F)} {P : (Nat → F) → α → Prop} {n : Nat} : ∀ (l : List α),
    (∀ x ∈ l, ∀ s s', Inv s → n ≤ s.vars.length → f s x = .ok s' → Inv s' ∧ Ext s s' ∧ ∀ t, Ext s' t → ∀ w, Good w t → P w x) →
    ∀ {s s' : Draft F}, Inv s → n ≤ s.vars.length → l.foldlM f s = .ok s' →
      Inv s' ∧ Ext s s' ∧ ∀ t, Ext s' t → ∀ w, Good w t → ∀ x ∈ l, P w x
  | [], _, s, s', h, _, hr => by cases hr; exact ⟨h, Ext.refl _, by simp⟩
  | x :: l, hf, s, s', h, hn, hr => by
    rw [List.foldlM_cons] at hr
    obtain ⟨s1, h1, hr⟩ := bind_ok.1 hr
    obtain ⟨i1, e1, m1⟩ := hf x List.mem_cons_self s s1 h hn h1
    obtain ⟨i2, e2, m2⟩ := fold_spec l (fun y hy => hf y (List.mem_cons_of_mem _ hy)) i1 (hn.trans e1.len) hr
    refine ⟨i2, e1.trans e2, fun t ht w hw y hy => ?_⟩
    rcases List.mem_cons.1 hy with rfl | hy
    · exact m1 t (e2.trans ht) w hw
    · exact m2 t ht w hw y hy

variable [DecidableEq F]

theorem putConstant_spec {s s' : Draft F} {x : F} {i : Nat} (h : Inv s) (hr : s.putConstant x = .ok (s', i)) : Inv s' ∧ Ext s s' := by
  rw [putConstant] at hr
  cases hc : s.constants.lookup x with
  | some j => rw [hc] at hr; cases hr; exact ⟨h, Ext.refl _⟩
  | none =>
    rw [hc] at hr
    obtain ⟨s1, h1, hr⟩ := bind_ok.1 hr
    cases hr
    obtain ⟨i1, e1, -⟩ := fixWitness_spec (h.addVariable x) h1
    have e2 := (ext_addVariable h x).trans e1
    exact ⟨⟨i1.1, i1.2, i1.3, i1.4, i1.5, i1.6, i1.7, i1.8, i1.9, i1.10, i1.11, i1.12, i1.13⟩, ⟨e2.1, e2.2, e2.3, e2.4, e2.5, e2.6⟩⟩

theorem addFillers_spec {s s' : Draft F} {extra : List F} (h : Inv s) (hr : s.addFillers extra = .ok s') : Inv s' ∧ Ext s s' := by
  obtain ⟨⟨s1, i⟩, h1, hr⟩ := bind_ok.1 hr
  obtain ⟨s2, h2, hr⟩ := bind_ok.1 hr
  cases hr
  rw [pushDelta_eq, pushDelta_eq, pushArith_eq] at h1
  obtain ⟨i1, e1⟩ := putConstant_spec (((h.rows _ _).rows _ _).rows _ _) h1
  obtain ⟨i2, e2⟩ := bigGate_inv h2 i1
  rw [addVariables_eq]
  exact ⟨i2.addMany _, (((((ext_rows _ _ _).trans (ext_rows _ _ _)).trans (ext_rows _ _ _)).trans e1).trans e2).trans
    (ext_addMany i2.real_len _ _)⟩

theorem init_spec {witness : List F} {inputs : List Nat} {vk : Bool} {s : Draft F} (hr : init witness inputs vk = .ok s) :
    Inv s ∧ s.vars.length = witness.length + 1 ∧ s.inputs = inputs ∧ ∀ w : Nat → F, ∀ t, Ext s t → ArithOk w t.arith → w t.zeroIdx = 0 := by
  obtain ⟨⟨s1, i⟩, h1, hr⟩ := bind_ok.1 hr
  cases hr
  rw [addVariables_eq] at h1
  obtain ⟨s2, h2, h1⟩ := bind_ok.1 (show (do
    let s ← ({ (empty vk).addMany witness 0 with inputs := inputs }.addVariable 0).fixWitness ((empty vk).addMany witness 0).vars.length 0
    pure ({ s with constants := (0, ((empty vk).addMany witness 0).vars.length) :: s.constants }, ((empty vk).addMany witness 0).vars.length)) = .ok (s1, i)
    from h1)
  cases h1
  obtain ⟨_, h3, h2⟩ := bind_ok.1 h2
  cases h2
  have hrl : ∀ v < witness.length + 1, (List.range' 0 witness.length ++ [witness.length]).getD v 0 = v := by
    intro v hv
    rw [show List.range' 0 witness.length ++ [witness.length] = List.range' 0 (witness.length + 1) by rw [List.range'_1_concat]; simp,
      List.getD_eq_getElem?_getD, List.getElem?_range' (by omega)]
    simp
  have htg : ∀ v, (List.replicate witness.length 0 ++ [0]).getD v 0 = 0 := by
    intro v
    rw [← List.replicate_succ', List.getD_eq_getElem?_getD, List.getElem?_replicate]
    split_ifs <;> rfl
  refine ⟨⟨?_, ?_, ?_, ?_, ?_, ?_, ?_, ?_, ?_, ?_, ?_, ?_, ?_⟩, ?_, rfl, ?_⟩
  · simp [pushArith, addMany, empty, addVariable]
  · simp [pushArith, addMany, empty, addVariable]
  · simp [pushArith, addMany, empty, addVariable]
  · intro v hv
    simp only [pushArith, addMany, empty, addVariable, List.nil_append, List.length_append, List.length_nil, List.length_singleton] at hv
    simp only [rl, pushArith, addMany, empty, addVariable, List.nil_append, List.length_append, List.length_nil, List.length_singleton]
    rw [hrl v hv]; exact hv
  · intro v hv
    simp only [pushArith, addMany, empty, addVariable, List.nil_append, List.length_append, List.length_nil, List.length_singleton] at hv
    simp only [rl, pushArith, addMany, empty, addVariable, List.nil_append, List.length_nil]
    rw [hrl v hv, hrl v hv]
  · intro l hl; cases hl
  · intro v hv h0
    exact absurd (htg _) (by simpa [tg, pushArith, addMany, empty, addVariable] using h0)
  · simp [pushArith, addMany, empty, addVariable]
  · simp [pushArith, addMany, empty, addVariable]
  · intro l hl; cases hl
  · intro l hl; cases hl
  · simp
  · intro l hl; cases hl
  · simp [pushArith, addMany, empty, addVariable]
  · intro w t ht hw
    have := hw.one _ (ht.arith.subset (List.mem_append_right _ (List.mem_singleton.2 rfl))) rfl
    have hz := ht.zero
    simp only [lin, Matrix.cons_val_zero, Matrix.cons_val_one, Matrix.cons_val] at this hz
    rw [hz]
    simp only [addMany, empty] at this ⊢
    linear_combination this

/-! ## The opcodes -/

/-- An opcode is satisfied. -/
def OpSat (w : Nat → F) : Opcode F → Prop
  | .assertZero e => exprValue w e = 0
  | .range (.witness v) bits => ∃ k : Nat, k < 2 ^ bits ∧ w v = (k : F)
  | _ => False

/-- All constraints are satisfied. -/
structure AcirFormat.Sat (w : Nat → F) (af : AcirFormat F) : Prop where
  quads : ∀ q ∈ af.quads, q.value (opt w) = 0
  bigQuads : ∀ qs ∈ af.bigQuads, quadSum w qs = 0
  ranges : ∀ r ∈ af.ranges, ∃ k : Nat, k < 2 ^ r.2 ∧ w r.1 = (k : F)

theorem addOpcode_spec {af af' : AcirFormat F} {op : Opcode F} (h : addOpcode af op = .ok af') :
    ((∀ qs ∈ af.bigQuads, ∀ q ∈ qs.tail, q.d = none ∧ q.qd = 0) → ∀ qs ∈ af'.bigQuads, ∀ q ∈ qs.tail, q.d = none ∧ q.qd = 0) ∧
    (∀ r ∈ af'.ranges, r ∈ af.ranges ∨ r.1 ∈ witnessesOf op) ∧ ∀ w, af'.Sat w → af.Sat w ∧ OpSat w op := by
  cases op with
  | assertZero e =>
    obtain ⟨qs, h1, h⟩ := bind_ok.1 h
    obtain ⟨_, -, h⟩ := bind_ok.1 h
    by_cases hs : isSingle e (linearTerms e)
    · rw [if_pos hs] at h
      match qs, h1, h with
      | [q], h1, h =>
        cases h
        refine ⟨id, fun r hr => .inl hr, fun w hw => ⟨⟨fun q' hq' => hw.quads q' (List.mem_append_left _ hq'), hw.bigQuads, hw.ranges⟩, ?_⟩⟩
        have := hw.quads q (by simp)
        rw [OpSat, ← (splitQuads_sum w h1).1]
        simpa [quadSum] using this
      | [], h1, h => cases h
      | _ :: _ :: _, h1, h => cases h
    · rw [if_neg hs] at h
      obtain ⟨_, -, h⟩ := bind_ok.1 h
      cases h
      refine ⟨fun h0 qs' hq => ?_, fun r hr => .inl hr,
        fun w hw => ⟨⟨hw.quads, fun q' hq' => hw.bigQuads q' (List.mem_append_left _ hq'), hw.ranges⟩, ?_⟩⟩
      · rcases List.mem_append.1 hq with hq | hq
        · exact h0 qs' hq
        · rw [List.mem_singleton.1 hq]; exact (splitQuads_sum (fun _ => 0) h1).2.2
      · rw [OpSat, ← (splitQuads_sum w h1).1]; exact hw.bigQuads qs (by simp)
  | range x bits =>
    cases x with
    | witness v =>
      cases h
      refine ⟨id, fun r hr => ?_, fun w hw => ⟨⟨hw.quads, hw.bigQuads, fun r hr => hw.ranges r (List.mem_append_left _ hr)⟩, ?_⟩⟩
      · rcases List.mem_append.1 hr with hr | hr
        · exact .inl hr
        · rw [List.mem_singleton.1 hr]; right; simp [witnessesOf]
      · exact hw.ranges (v, bits) (by simp)
    | constant c => cases h
  | memoryInit => cases h
  | memoryRead => cases h
  | memoryWrite => cases h
  | and => cases h
  | xor => cases h
  | call => cases h

theorem acirFold_spec : ∀ (ops : List (Opcode F)) {af af' : AcirFormat F}, ops.foldlM addOpcode af = .ok af' →
    (∀ qs ∈ af.bigQuads, ∀ q ∈ qs.tail, q.d = none ∧ q.qd = 0) →
    (∀ qs ∈ af'.bigQuads, ∀ q ∈ qs.tail, q.d = none ∧ q.qd = 0) ∧
    (∀ r ∈ af'.ranges, r ∈ af.ranges ∨ r.1 ∈ ops.flatMap witnessesOf) ∧ ∀ w, af'.Sat w → af.Sat w ∧ ∀ op ∈ ops, OpSat w op
  | [], af, af', h, h0 => by cases h; exact ⟨h0, fun r hr => .inl hr, fun w hw => ⟨hw, by simp⟩⟩
  | op :: ops, af, af', h, h0 => by
    rw [List.foldlM_cons] at h
    obtain ⟨af1, h1, h⟩ := bind_ok.1 h
    obtain ⟨a1, a2, a3⟩ := addOpcode_spec h1
    obtain ⟨b1, b2, b3⟩ := acirFold_spec ops h (a1 h0)
    refine ⟨b1, fun r hr => ?_, fun w hw => ?_⟩
    · rcases b2 r hr with hr | hr
      · rcases a2 r hr with hr | hr
        · exact .inl hr
        · right; rw [List.flatMap_cons]; exact List.mem_append_left _ hr
      · right; rw [List.flatMap_cons]; exact List.mem_append_right _ hr
    · obtain ⟨h2, h3⟩ := b3 w hw
      obtain ⟨h4, h5⟩ := a3 w h2
      refine ⟨h4, fun o ho => ?_⟩
      rcases List.mem_cons.1 ho with rfl | ho
      · exact h5
      · exact h3 o ho

theorem le_foldl_max (l : List Nat) : ∀ a, a ≤ l.foldl max a ∧ ∀ x ∈ l, x ≤ l.foldl max a := by
  induction l with
  | nil => intro a; simp
  | cons y l ih =>
    intro a
    obtain ⟨h1, h2⟩ := ih (max a y)
    refine ⟨(le_max_left _ _).trans h1, fun x hx => ?_⟩
    rcases List.mem_cons.1 hx with rfl | hx
    · exact (le_max_right _ _).trans h1
    · exact h2 x hx

/-! ## The whole circuit -/

theorem buildConstraints_spec {toNat : F → Nat} {s s' : Draft F} {af : AcirFormat F} (h : Inv s)
    (hq : ∀ qs ∈ af.bigQuads, ∀ q ∈ qs.tail, q.d = none ∧ q.qd = 0) (hR : ∀ r ∈ af.ranges, r.1 < s.vars.length)
    (hr : s.buildConstraints toNat af = .ok s') :
    Inv s' ∧ Ext s { s' with inputs := s.inputs } ∧ ∃ is, s'.inputs = s.inputs ++ is ∧ is.length = 8 ∧ (∀ i ∈ is, i < s'.vars.length) ∧
      ∀ t, Ext s' t → ∀ w : Nat → F, Good w t → af.Sat w ∧ ∀ i ∈ is, w i = 0 := by
  obtain ⟨s1, h1, hr⟩ := bind_ok.1 hr
  obtain ⟨s2, h2, hr⟩ := bind_ok.1 hr
  obtain ⟨s3, h3, hr⟩ := bind_ok.1 hr
  obtain ⟨i1, e1, m1⟩ := fold_spec (P := fun w q => Quad.value (opt w) q = 0) af.quads
    (fun q _ s s' hs _ hr => quadConstraint_spec hs hr) h le_rfl h1
  obtain ⟨i2, e2, m2⟩ := fold_spec (P := fun w qs => quadSum w qs = 0) af.bigQuads
    (fun qs hqs s s' hs _ hr => by
      obtain ⟨a, b, -, c⟩ := bigQuad_spec qs hs hr (hq qs hqs)
      exact ⟨a, b, c⟩) i1 e1.len h2
  obtain ⟨i3, e3, m3⟩ := fold_spec (P := fun w (r : Nat × Nat) => ∃ k : Nat, k < 2 ^ r.2 ∧ w r.1 = (k : F)) af.ranges
    (fun r hr' s0 s' hs hn hr => dyadicRange_spec hs (lt_of_lt_of_le (hR r hr') hn) hr) i2 (e1.trans e2).len h3
  obtain ⟨i4, e4, is, his, hlen, hlt, m4⟩ := defaultInputs_spec _ i3 hr
  have e13 := e1.trans (e2.trans e3)
  rw [e13.inputs] at e4 his
  refine ⟨i4, e13.trans e4, is, his, by simpa using hlen, hlt, fun t ht w hw => ⟨⟨?_, ?_, ?_⟩, m4 t ht w hw⟩⟩
  all_goals
    have ht' := ht.withInputs s.inputs
    have hw' := hw.inputs s.inputs
  · exact m1 _ (e2.trans (e3.trans (e4.trans ht'))) w hw'
  · exact m2 _ (e3.trans (e4.trans ht')) w hw'
  · exact m3 _ (e4.trans ht') w hw'

/-- The circuit before its lists are sorted, and what it says. -/
theorem createCircuit_spec {toNat : F → Nat} {ops : List (Opcode F)} {inputs : List Nat} {witness extra : List F} {t : Draft F}
    (h : createCircuit toNat ops inputs witness extra = .ok t) :
    ∃ b, Inv b ∧ Final b b.rangeLists t ∧ ∃ is, b.inputs = inputs ++ is ∧ is.length = 8 ∧ (∀ i ∈ b.inputs, i < b.vars.length) ∧
      ∀ w : Nat → F, ArithOk w b.arith → (∀ l ∈ b.rangeLists, ∀ v ∈ l.vars, ∃ k ≤ l.target, w v = (k : F)) →
        (∀ u < b.vars.length, ∀ v < b.vars.length, b.rl u = b.rl v → w u = w v) →
        (∀ op ∈ ops, OpSat w op) ∧ ∀ i ∈ is, w i = 0 := by
  obtain ⟨af, h1, h⟩ := bind_ok.1 h
  obtain ⟨_, h2, h⟩ := bind_ok.1 h
  obtain ⟨s1, h3, h⟩ := bind_ok.1 h
  obtain ⟨s2, h4, h⟩ := bind_ok.1 h
  obtain ⟨b, h5, h⟩ := bind_ok.1 h
  obtain ⟨hw1, hw2, hw3⟩ := acirFold_spec ops h1 (by simp)
  obtain ⟨i1, hl, hin, hz⟩ := init_spec h3
  have hsize : s1.vars.length = maxWitness inputs ops + 1 + 1 := by
    rw [hl]
    by_cases hw : witness = []
    · rw [if_pos hw]; simp
    · rw [if_neg hw]
      have := check_ok.1 h2
      simp only [hw, false_or, decide_eq_true_eq] at this
      rw [this]
  have hmax := (le_foldl_max (inputs ++ ops.flatMap witnessesOf) 0).2
  obtain ⟨i2, e2, is, his, hlen, hlt, m2⟩ := buildConstraints_spec i1 hw1 (fun r hr => by
    rcases hw2 r hr with hr | hr
    · simp at hr
    · have := hmax _ (List.mem_append_right _ hr)
      rw [hsize, maxWitness]; omega) h4
  obtain ⟨i3, e3⟩ := addFillers_spec i2 h5
  have e23 := e2.trans (e3.withInputs s1.inputs)
  refine ⟨b, i3, processRanges_ok i3 h, is, by rw [e3.inputs, his, hin], hlen, fun i hi => ?_, fun w ha hra hre => ?_⟩
  · rw [e3.inputs, his, hin] at hi
    rcases List.mem_append.1 hi with hi | hi
    · have := hmax i (List.mem_append_left _ hi)
      have hle : s1.vars.length ≤ b.vars.length := e23.len
      rw [hsize, maxWitness] at hle; omega
    · exact lt_of_lt_of_le (hlt i hi) e3.len
  · have hg : Good w b := ⟨ha, hra, hre, hz w { b with inputs := s1.inputs } e23 ha⟩
    obtain ⟨hs, h0⟩ := m2 b e3 w hg
    exact ⟨(hw3 w hs).2, h0⟩

end Verif.Honk.Draft
