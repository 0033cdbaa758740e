import Verif.Honk.BuildHonestExpr

/-!
# Lemmas: the constraints of an honest prover
-/

namespace Verif.Honk.Draft

open Acvm (Expression Input Opcode)

variable {F : Type} [Field F] {toNat : F → Nat}

theorem Honest.withInputs {s : Draft F} {P : List Nat} {e : Option F} (h : Honest toNat s P e) (is : List Nat) : Honest toNat { s with inputs := is } P e :=
  ⟨h.inv.inputs is, h.ident, h.arith, h.zero, h.consts, h.lists, h.placed⟩

theorem Honest.withDelta {s : Draft F} {P : List Nat} {e : Option F} (h : Honest toNat s P e) (g : Gate F) : Honest toNat (s.pushDelta g) P e :=
  ⟨by rw [pushDelta_eq]; exact h.inv.rows _ _, h.ident, h.arith, h.zero, h.consts, h.lists, h.placed⟩

/-- The public inputs of the empty pairing point. -/
theorem Honest.defaultInputs (l : List Nat) : ∀ {s : Draft F} {P : List Nat}, Honest toNat s P none →
    ∃ s', l.foldlM (fun s _ => (s.addPublicVariable 0).fixWitness s.vars.length 0) s = .ok s' ∧ Honest toNat s' P none ∧
      s.vars <+: s'.vars ∧ s'.delta = s.delta ∧ s'.zeroIdx = s.zeroIdx ∧
      ∃ is, s'.inputs = s.inputs ++ is ∧ is.length = l.length ∧ ∀ i ∈ is, s'.vars[i]? = some 0 := by
  induction l with
  | nil => intro s P h; exact ⟨s, rfl, h, List.prefix_rfl, rfl, rfl, [], by simp⟩
  | cons x l ih =>
    intro s P h
    have h0 : Honest toNat (s.addPublicVariable 0) P none := (h.addVariable 0).withInputs _
    obtain ⟨s1, r1, h1, g1, v1, -⟩ := h0.fixWitness (get_new s 0)
    obtain ⟨s2, r2, h2, p2, d2, z2, is, his, hlen, hval⟩ := ih h1
    refine ⟨s2, ?_, h2, ?_, d2.trans g1.delta, z2.trans g1.zero, s.vars.length :: is, ?_, by simp [hlen], ?_⟩
    · rw [List.foldlM_cons]; exact bind_ok.2 ⟨s1, r1, r2⟩
    · refine List.IsPrefix.trans ⟨[0], rfl⟩ (g1.vars.trans p2)
    · rw [his, g1.inputs]; simp [addPublicVariable]
    · intro i hi
      rcases List.mem_cons.1 hi with rfl | hi
      · exact get_mono (g1.vars.trans p2) (get_new s 0)
      · exact hval i hi

theorem fold_honest {α : Type} {f : Draft F → α → Except Err (Draft F)} : ∀ (l : List α) {s : Draft F}, Honest toNat s [] none →
    (∀ x ∈ l, ∀ t, Honest toNat t [] none → Grows s t → ∃ t', f t x = .ok t' ∧ Honest toNat t' [] none ∧ Grows t t') →
    ∃ s', l.foldlM f s = .ok s' ∧ Honest toNat s' [] none ∧ Grows s s'
  | [], s, h, _ => ⟨s, rfl, h, .refl s⟩
  | x :: l, s, h, hf => by
    obtain ⟨s1, r1, h1, g1⟩ := hf x List.mem_cons_self s h (.refl s)
    obtain ⟨s2, r2, h2, g2⟩ := fold_honest l h1 fun y hy t ht hg => hf y (List.mem_cons_of_mem _ hy) t ht (g1.trans hg)
    exact ⟨s2, by rw [List.foldlM_cons]; exact bind_ok.2 ⟨s1, r1, r2⟩, h2, g1.trans g2⟩

variable [DecidableEq F]

/-- The constraints of a program. -/
theorem Honest.build (hT : Lifts toNat) {s : Draft F} (h : Honest toNat s [] none) {af : AcirFormat F} (hW : af.Wires (· < s.vars.length))
    (hs : ∀ w, Agree w s → af.Sat w) :
    ∃ s', s.buildConstraints toNat af = .ok s' ∧ Honest toNat s' [] none ∧ s.vars <+: s'.vars ∧ s'.delta = s.delta ∧ s'.zeroIdx = s.zeroIdx ∧
      ∃ is, s'.inputs = s.inputs ++ is ∧ is.length = 8 ∧ ∀ i ∈ is, s'.vars[i]? = some 0 := by
  have hlt : ∀ {t : Draft F}, Grows s t → ∀ v, v < s.vars.length → v < t.vars.length := fun hg v hv => lt_of_lt_of_le hv hg.vars.length_le
  obtain ⟨s1, r1, h1, g1⟩ := fold_honest (f := Draft.quadConstraint) af.quads h fun q hq t ht hg =>
    ht.quadConstraint ((hW.quads q hq).mono (hlt hg)) (by simp) fun w hw => (hs w (hw.mono hg.vars)).quads q hq
  obtain ⟨s2, r2, h2, g2⟩ := fold_honest (f := Draft.bigQuadConstraint) af.bigQuads h1 fun qs hqs t ht hg => by
    obtain ⟨hne, hq, htl⟩ := hW.bigQuads qs hqs
    exact ht.bigQuad qs hne (fun q hq' => (hq q hq').mono (hlt (g1.trans hg))) htl (by simp)
      fun w hw => (hs w (hw.mono (g1.trans hg).vars)).bigQuads qs hqs
  obtain ⟨s3, r3, h3, g3⟩ := fold_honest (f := fun s (r : Nat × Nat) => s.dyadicRange toNat r.1 r.2) af.ranges h2 fun r hr t ht hg => by
    have hv := hW.ranges r hr
    let w0 : Nat → F := fun v => s.vars.getD v 0
    have hw0 : Agree w0 s := fun v x hx => by simp [w0, List.getD_eq_getElem?_getD, hx]
    have hget : s.vars[r.1]? = some (w0 r.1) := by simp [w0, List.getD_eq_getElem?_getD, List.getElem?_eq_getElem hv]
    obtain ⟨k, hk, e⟩ := (hs w0 hw0).ranges r hr
    exact ht.dyadicRange hT (get_mono (g1.trans (g2.trans hg)).vars hget) (by rw [e]; exact lt_of_le_of_lt (hT.le k) hk)
  obtain ⟨s4, r4, h4, p4, d4, z4, is, his, hlen, hval⟩ := h3.defaultInputs (List.range 8)
  have g := g1.trans (g2.trans g3)
  refine ⟨s4, bind_ok.2 ⟨s1, r1, bind_ok.2 ⟨s2, r2, bind_ok.2 ⟨s3, r3, r4⟩⟩⟩, h4, g.vars.trans p4, d4.trans g.delta, z4.trans g.zero, is, ?_,
    by simpa using hlen, hval⟩
  rw [his, g.inputs]

/-- The rows of the block `delta_range` that are made before the lists are sorted. -/
def fillerDelta (z : Nat) : List (Gate F) := [⟨fun _ => z, 0, 0, 0, 0, 0, 0, 0, 1⟩, freeGate fun _ => z]

/-- The gates that keep the columns from being zero. -/
theorem Honest.fillers {s : Draft F} (h : Honest toNat s [] none) (hd : s.delta = []) (extra : List F) :
    ∃ s', s.addFillers extra = .ok s' ∧ Honest toNat s' [] none ∧ s.vars <+: s'.vars ∧ s'.inputs = s.inputs ∧ s'.delta = fillerDelta s'.zeroIdx := by
  have h1 : Honest toNat (s.pushArith ⟨fun _ => s.zeroIdx, 1, 1, 1, 1, 1, 0, 0, 0⟩) [] none := h.push _ fun w hw ha => .zero ha (by simp) rfl rfl
  obtain ⟨s2, i, r2, h2, g2, hi⟩ := ((h1.withDelta ⟨fun _ => s.zeroIdx, 0, 0, 0, 0, 0, 0, 0, 1⟩).withDelta (freeGate fun _ => s.zeroIdx)).putConstant 1
  obtain ⟨s3, r3, h3, g3, v3, -⟩ := h2.gate (q := ⟨s2.zeroIdx, s2.zeroIdx, s2.zeroIdx, i, 0, 0, 0, 0, 1, -1⟩)
    ⟨lt_of_get h2.zero, lt_of_get h2.zero, lt_of_get h2.zero, lt_of_get hi⟩ (by simp) fun w hw => by
      simp only [Quad.value, hw _ _ hi]; ring
  have hz : s3.zeroIdx = s.zeroIdx := g3.zero.trans g2.zero
  have hdel : s3.delta = fillerDelta s3.zeroIdx := by
    rw [g3.delta, g2.delta, hz]
    show s.delta ++ [_] ++ [_] = _
    rw [hd]; rfl
  have key : ∀ (xs : List F) {t : Draft F}, Honest toNat t [] none → Honest toNat (xs.foldl Draft.addVariable t) [] none ∧
      Grows t (xs.foldl Draft.addVariable t) := by
    intro xs
    induction xs with
    | nil => intro t ht; exact ⟨ht, .refl t⟩
    | cons x xs ih =>
      intro t ht
      obtain ⟨a, b⟩ := ih (ht.addVariable x)
      exact ⟨a, (grows_addVariable t x).trans b⟩
  obtain ⟨h4, g4⟩ := key extra h3
  refine ⟨extra.foldl Draft.addVariable s3, bind_ok.2 ⟨(s2, i), r2, bind_ok.2 ⟨s3, r3, rfl⟩⟩, h4, ?_, ?_, ?_⟩
  · exact List.IsPrefix.trans (List.prefix_refl _) (g2.vars.trans (g3.vars.trans g4.vars))
  · exact (g4.inputs.trans g3.inputs).trans g2.inputs
  · rw [g4.delta, g4.zero, hdel]

/-- The variables of the witness. -/
theorem init_honest (toNat : F → Nat) (witness : List F) (inputs : List Nat) (vk : Bool) :
    ∃ s, init witness inputs vk = .ok s ∧ Honest toNat s [] none ∧ s.vars = witness ++ [0] ∧ s.inputs = inputs ∧ s.delta = [] := by
  have hrun : ∃ s, init witness inputs vk = .ok s ∧ s.vars = witness ++ [0] ∧ s.real = List.range' 0 (witness.length + 1) ∧
      s.arith = [⟨![witness.length, 0, 0, 0], 0, 1, 0, 0, 0, -0, 1, 0⟩] ∧ s.zeroIdx = witness.length ∧ s.constants = [(0, witness.length)] ∧
      s.rangeLists = [] ∧ s.delta = [] := by
    rw [init]
    simp only [addVariables_eq]
    have hlen : ((empty vk).addMany witness 0).vars.length = witness.length := by simp [addMany, empty]
    refine ⟨_, bind_ok.2 ⟨_, bind_ok.2 ⟨_, bind_ok.2 ⟨(), checkValid_ok.2 ?_, rfl⟩, rfl⟩, rfl⟩, ?_, ?_, ?_, ?_, ?_, ?_, ?_⟩
    · simp [addMany, empty, Draft.addVariable]
    · simp [pushArith, addMany, empty, Draft.addVariable]
    · simp only [pushArith, addMany, empty, Draft.addVariable, List.nil_append, List.length_nil]
      rw [List.range'_1_concat]; simp
    all_goals simp [pushArith, addMany, empty, Draft.addVariable]
  obtain ⟨s, hr, hv, hreal, ha, hz, hc, hl, hd⟩ := hrun
  obtain ⟨hi, -, hin, -⟩ := init_spec hr
  refine ⟨s, hr, ⟨hi, fun v hlt => ?_, fun w hw => ?_, ?_, fun x i hx => ?_, ?_, ?_⟩, hv, hin, hd⟩
  · rw [hv] at hlt
    have hlt : v < witness.length + 1 := by simpa using hlt
    rw [rl, hreal, List.getD_eq_getElem?_getD, List.getElem?_range' hlt]
    simp
  · rw [ha]
    have h0 : w witness.length = 0 := hw _ _ (by rw [hv]; simp)
    refine ArithC.one (gs := []) .nil (by simp) rfl rfl ?_
    simp only [gateValue, lin, Matrix.cons_val_zero, Matrix.cons_val_one, Matrix.cons_val, h0]
    ring
  · rw [hz, hv]; simp
  · rw [hc] at hx
    obtain ⟨rfl, rfl⟩ := Prod.mk.inj (List.mem_singleton.1 hx)
    rw [hv]; simp
  · rw [hl]; simp
  · rw [hl]; simp

theorem sum_congr_map {α : Type} {l : List α} {f g : α → F} (h : ∀ x ∈ l, f x = g x) : (l.map f).sum = (l.map g).sum := by
  rw [List.map_congr_left h]

theorem OpSat.congr {w w' : Nat → F} {op : Opcode F} (h : ∀ v ∈ witnessesOf op, w v = w' v) (hs : OpSat w op) : OpSat w' op := by
  cases op with
  | assertZero e =>
    simp only [witnessesOf, List.mem_append, List.mem_flatMap, List.mem_map] at h
    rw [OpSat, exprValue] at hs ⊢
    rw [← hs]
    congr 2
    · refine sum_congr_map fun t ht => ?_
      rw [h t.2.1 (.inl ⟨t, ht, by simp⟩), h t.2.2 (.inl ⟨t, ht, by simp⟩)]
    · refine sum_congr_map fun t ht => ?_
      rw [h t.2 (.inr ⟨t, ht, rfl⟩)]
  | range x bits =>
    cases x with
    | witness v => rw [OpSat, ← h v (by simp [witnessesOf])]; exact hs
    | constant c => exact hs
  | _ => exact hs

/-- The circuit before the lists are sorted. -/
theorem build_honest (hT : Lifts toNat) {ops : List (Opcode F)} {inputs : List Nat} {witness : List F} (extra : List F) {af : AcirFormat F}
    (haf : acirFormat ops = .ok af) (hlen : witness.length = maxWitness inputs ops + 1) (hsat : ∀ op ∈ ops, OpSat (fun v => witness.getD v 0) op) :
    ∃ s1 s2 b, init witness inputs false = .ok s1 ∧ s1.buildConstraints toNat af = .ok s2 ∧ s2.addFillers extra = .ok b ∧ Honest toNat b [] none ∧
      b.delta = fillerDelta b.zeroIdx ∧ witness <+: b.vars ∧ ∃ is, b.inputs = inputs ++ is ∧ is.length = 8 ∧ ∀ i ∈ is, b.vars[i]? = some 0 := by
  obtain ⟨s1, r1, h1, v1, i1, d1⟩ := init_honest toNat witness inputs false
  have hmax := (le_foldl_max (inputs ++ ops.flatMap witnessesOf) 0).2
  have hl1 : s1.vars.length = witness.length + 1 := by rw [v1]; simp
  have hWl : ∀ v ∈ ops.flatMap witnessesOf, v < witness.length := fun v hv => by
    have := hmax v (List.mem_append_right _ hv)
    rw [hlen, maxWitness]; omega
  obtain ⟨hw, hs⟩ := acirFold_wires (W := (· < s1.vars.length)) ops (fun v hv => by have := hWl v hv; omega) haf ⟨by simp, by simp, by simp⟩
  have hsat' : ∀ w, Agree w s1 → af.Sat w := fun w hw => by
    refine hs w ⟨by simp, by simp, by simp⟩ fun op hop => (hsat op hop).congr fun v hv => ?_
    have hv' := hWl v (List.mem_flatMap.2 ⟨op, hop, hv⟩)
    refine (hw v _ ?_).symm
    rw [v1, List.getElem?_append_left hv', List.getD_eq_getElem?_getD, List.getElem?_eq_getElem hv']; rfl
  obtain ⟨s2, r2, h2, p2, d2, -, is, his, h8, hval⟩ := h1.build hT hw hsat'
  obtain ⟨b, r3, h3, p3, i3, d3⟩ := h2.fillers (d2.trans d1) extra
  refine ⟨s1, s2, b, r1, r2, r3, h3, d3, ?_, is, by rw [i3, his, i1], h8, fun i hi => get_mono p3 (hval i hi)⟩
  exact List.IsPrefix.trans ⟨[0], v1.symm⟩ (p2.trans p3)

end Verif.Honk.Draft
