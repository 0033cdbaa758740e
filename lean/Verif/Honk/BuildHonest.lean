import Verif.Honk.BuildSort

/-!
# Lemmas: the circuit of an honest prover

The values of the variables satisfy the rows while the circuit is built.
-/

namespace Verif.Honk.Draft

variable {F : Type} [Field F]

/-- What is assumed of the conversion of field elements to integers. -/
structure Lifts (toNat : F → Nat) : Prop where
  cast : ∀ x, ((toNat x : Nat) : F) = x
  small : ∀ k : Nat, k < 2 ^ 14 → toNat (k : F) = k
  bound : ∀ x, toNat x < 2 ^ 256
  le : ∀ k : Nat, toNat (k : F) ≤ k

theorem Lifts.two {toNat : F → Nat} (h : Lifts toNat) : (2 : F) ≠ 0 := by
  intro e
  have h2 := h.small 2 (by norm_num)
  have h0 := h.small 0 (by norm_num)
  rw [Nat.cast_ofNat, e] at h2
  rw [Nat.cast_zero] at h0
  omega

/-- The values of the variables of a circuit. -/
def Agree (w : Nat → F) (s : Draft F) : Prop := ∀ v x, s.vars[v]? = some x → w v = x

/-- The rows of the block `arithmetic` hold.  The last one may demand a value on the fourth wire of the next row. -/
inductive ArithC (w : Nat → F) : List (Gate F) → Option F → Prop
  | nil : ArithC w [] none
  | zero {gs e g} : ArithC w gs e → (∀ x, e = some x → w (g.row 3) = x) → g.qArith = 0 → g.qDelta = 0 → ArithC w (gs ++ [g]) none
  | one {gs e g} : ArithC w gs e → (∀ x, e = some x → w (g.row 3) = x) → g.qArith = 1 → g.qDelta = 0 → gateValue w g = 0 → ArithC w (gs ++ [g]) none
  | two {gs e g} (k x) : ArithC w gs e → (∀ x, e = some x → w (g.row 3) = x) → g.qArith = 2 → g.qDelta = 0 → g.qm = k * 2 →
      k * w (g.row 0) * w (g.row 1) + lin w g + x = 0 → ArithC w (gs ++ [g]) (some x)

theorem ArithC.zeros {w : Nat → F} {gs : List (Gate F)} (h : ArithC w gs none) : ∀ (l : List (Gate F)), (∀ g ∈ l, g.qArith = 0 ∧ g.qDelta = 0) → ArithC w (gs ++ l) none
  | [], _ => by simpa using h
  | g :: l, hl => by
    have := ArithC.zeros (.zero h (by simp) (hl g List.mem_cons_self).1 (hl g List.mem_cons_self).2) l fun g' h' => hl g' (List.mem_cons_of_mem _ h')
    simpa using this

/-- A circuit in the making whose values satisfy all its rows.  The variables `P` may still have to be put into a row. -/
structure Honest (toNat : F → Nat) (s : Draft F) (P : List Nat) (e : Option F) : Prop where
  inv : Inv s
  ident : ∀ v < s.vars.length, s.rl v = v
  arith : ∀ w, Agree w s → ArithC w s.arith e
  zero : s.vars[s.zeroIdx]? = some 0
  consts : ∀ x i, (x, i) ∈ s.constants → s.vars[i]? = some x
  lists : ∀ l ∈ s.rangeLists, l.target < 2 ^ 14 ∧ (∀ v ∈ l.vars, ∃ x, s.vars[v]? = some x ∧ toNat x ≤ l.target) ∧
    ∀ k ∈ rangeValues l.target, ∃ v ∈ l.vars, s.vars[v]? = some (k : F)
  placed : ∀ l ∈ s.rangeLists, ∀ v ∈ l.vars, v ∈ P ∨ ∃ g ∈ s.arith, ∃ j, g.row j = v

variable {toNat : F → Nat}

omit [Field F] in
theorem Agree.mono {w : Nat → F} {s t : Draft F} (h : Agree w t) (hp : s.vars <+: t.vars) : Agree w s := fun v x hx => h v x (by
  obtain ⟨l, hl⟩ := hp
  rw [← hl, List.getElem?_append_left (List.getElem?_eq_some_iff.1 hx).1]; exact hx)

omit [Field F] in
theorem lt_of_get {s : Draft F} {v : Nat} {x : F} (h : s.vars[v]? = some x) : v < s.vars.length := (List.getElem?_eq_some_iff.1 h).1

omit [Field F] in
theorem get_mono {α : Type} {l m : List α} (hp : l <+: m) {v : Nat} {x : α} (h : l[v]? = some x) : m[v]? = some x := by
  obtain ⟨r, rfl⟩ := hp
  rw [List.getElem?_append_left (List.getElem?_eq_some_iff.1 h).1]; exact h

theorem Honest.getVariable {s : Draft F} {P : List Nat} {e : Option F} (h : Honest toNat s P e) {v : Nat} {x : F} (hx : s.vars[v]? = some x) :
    s.getVariable v = .ok x := by
  have hv := lt_of_get hx
  rw [Draft.getVariable]
  refine bind_ok.2 ⟨(), check_ok.2 (decide_eq_true hv), bind_ok.2 ⟨v, index_iff.2 ?_, index_iff.2 hx⟩⟩
  have := h.ident v hv
  rw [rl, List.getD_eq_getElem?_getD, List.getElem?_eq_getElem (h.inv.real_len ▸ hv)] at this
  rw [List.getElem?_eq_getElem (h.inv.real_len ▸ hv)]
  exact congrArg some this

/-- A new variable. -/
theorem Honest.addVariable {s : Draft F} {P : List Nat} {e : Option F} (h : Honest toNat s P e) (x : F) : Honest toNat (s.addVariable x) P e where
  inv := h.inv.addVariable x
  ident v hv := by
    rw [addVariable_eq] at *
    rw [length_addMany] at hv
    by_cases c : v < s.vars.length
    · rw [rl_addMany_old h.inv.real_len _ _ c]; exact h.ident v c
    · exact rl_addMany_new h.inv.real_len _ _ (not_lt.1 c) hv
  arith w hw := h.arith w (hw.mono ⟨[x], rfl⟩)
  zero := get_mono ⟨[x], rfl⟩ h.zero
  consts y i hi := get_mono ⟨[x], rfl⟩ (h.consts y i hi)
  lists l hl := by
    obtain ⟨h1, h2, h3⟩ := h.lists l hl
    refine ⟨h1, fun v hv => ?_, fun k hk => ?_⟩
    · obtain ⟨y, hy, hle⟩ := h2 v hv
      exact ⟨y, get_mono ⟨[x], rfl⟩ hy, hle⟩
    · obtain ⟨v, hv, e⟩ := h3 k hk
      exact ⟨v, hv, get_mono ⟨[x], rfl⟩ e⟩
  placed := h.placed

omit [Field F] in
theorem get_new (s : Draft F) (x : F) : (s.addVariable x).vars[s.vars.length]? = some x := by simp [addVariable]

/-- A new row. -/
theorem Honest.push {s : Draft F} {P : List Nat} {e e' : Option F} (h : Honest toNat s P e) (g : Gate F)
    (hg : ∀ w, Agree w s → ArithC w s.arith e → ArithC w (s.arith ++ [g]) e') : Honest toNat (s.pushArith g) P e' where
  inv := h.inv.pushArith g
  ident := h.ident
  arith w hw := hg w hw (h.arith w hw)
  zero := h.zero
  consts := h.consts
  lists := h.lists
  placed l hl v hv := by
    rcases h.placed l hl v hv with h | ⟨g', hg', hj⟩
    · exact .inl h
    · exact .inr ⟨g', List.mem_append_left _ hg', hj⟩

theorem Honest.weaken {s : Draft F} {P Q : List Nat} {e : Option F} (h : Honest toNat s P e)
    (hP : ∀ v ∈ P, v ∈ Q ∨ ∃ g ∈ s.arith, ∃ j, g.row j = v) : Honest toNat s Q e :=
  { h with placed := fun l hl v hv => (h.placed l hl v hv).elim (hP v) .inr }

/-- What an operation keeps. -/
structure Grows (s t : Draft F) : Prop where
  vars : s.vars <+: t.vars
  zero : t.zeroIdx = s.zeroIdx
  inputs : t.inputs = s.inputs
  arith : s.arith <+: t.arith
  delta : t.delta = s.delta

omit [Field F] in
theorem Grows.refl (s : Draft F) : Grows s s := ⟨List.prefix_rfl, rfl, rfl, List.prefix_rfl, rfl⟩

omit [Field F] in
theorem Grows.trans {s t u : Draft F} (h : Grows s t) (h' : Grows t u) : Grows s u :=
  ⟨h.vars.trans h'.vars, h'.zero.trans h.zero, h'.inputs.trans h.inputs, h.arith.trans h'.arith, h'.delta.trans h.delta⟩

omit [Field F] in
theorem grows_addVariable (s : Draft F) (x : F) : Grows s (s.addVariable x) := ⟨⟨[x], rfl⟩, rfl, rfl, List.prefix_rfl, rfl⟩

omit [Field F] in
theorem grows_push (s : Draft F) (g : Gate F) : Grows s (s.pushArith g) := ⟨List.prefix_rfl, rfl, rfl, ⟨[g], rfl⟩, rfl⟩

/-- The values of four variables. -/
def At (s : Draft F) (q : Quad F Nat) : Prop := q.a < s.vars.length ∧ q.b < s.vars.length ∧ q.c < s.vars.length ∧ q.d < s.vars.length

theorem bigGate_run {s : Draft F} {q : Quad F Nat} (h : At s q) (b : Bool) : s.bigGate q b = .ok (s.pushArith
    ⟨![q.a, q.b, q.c, q.d], if b then q.mul * 2 else q.mul, q.qa, q.qb, q.qc, q.qd, q.const, if b then 2 else 1, 0⟩) := by
  rw [bigGate]
  refine bind_ok.2 ⟨(), checkValid_ok.2 ?_, rfl⟩
  obtain ⟨h1, h2, h3, h4⟩ := h
  simp [h1, h2, h3, h4]

/-- A gate that holds. -/
theorem Honest.gate {s : Draft F} {P : List Nat} {e : Option F} (h : Honest toNat s P e) {q : Quad F Nat} (hq : At s q)
    (he : ∀ x, e = some x → s.vars[q.d]? = some x) (hv : ∀ w, Agree w s → q.value w = 0) :
    ∃ s', s.bigGate q false = .ok s' ∧ Honest toNat s' P none ∧ Grows s s' ∧ s'.vars = s.vars ∧ (∃ g ∈ s'.arith, g.row = ![q.a, q.b, q.c, q.d]) ∧ s'.constants = s.constants := by
  refine ⟨_, bigGate_run hq false, h.push _ fun w hw ha => ?_, grows_push _ _, rfl, ⟨_, List.mem_append_right _ (List.mem_singleton.2 rfl), rfl⟩, rfl⟩
  refine .one ha (fun x hx => hw _ _ (he x hx)) rfl rfl ?_
  rw [← hv w hw]
  simp only [gateValue, lin, Quad.value, Bool.false_eq_true, if_false, Matrix.cons_val_zero, Matrix.cons_val_one, Matrix.cons_val]
  ring

/-- A gate that demands a value on the fourth wire of the next row. -/
theorem Honest.gateNext {s : Draft F} {P : List Nat} {e : Option F} (h : Honest toNat s P e) {q : Quad F Nat} (hq : At s q)
    (he : ∀ x, e = some x → s.vars[q.d]? = some x) {x : F} (hv : ∀ w, Agree w s → q.value w + x = 0) :
    ∃ s', s.bigGate q true = .ok s' ∧ Honest toNat s' P (some x) ∧ Grows s s' ∧ s'.vars = s.vars ∧ ∃ g ∈ s'.arith, g.row = ![q.a, q.b, q.c, q.d] := by
  refine ⟨_, bigGate_run hq true, h.push _ fun w hw ha => ?_, grows_push _ _, rfl, ⟨_, List.mem_append_right _ (List.mem_singleton.2 rfl), rfl⟩⟩
  refine .two q.mul x ha (fun x hx => hw _ _ (he x hx)) rfl rfl rfl ?_
  rw [← hv w hw]
  simp only [lin, Quad.value, Matrix.cons_val_zero, Matrix.cons_val_one, Matrix.cons_val]
  ring

theorem Honest.fixWitness {s : Draft F} {P : List Nat} (h : Honest toNat s P none) {v : Nat} {x : F} (hx : s.vars[v]? = some x) :
    ∃ s', s.fixWitness v x = .ok s' ∧ Honest toNat s' P none ∧ Grows s s' ∧ s'.vars = s.vars ∧ s'.constants = s.constants := by
  refine ⟨_, bind_ok.2 ⟨(), checkValid_ok.2 (by simpa using lt_of_get hx), rfl⟩, h.push _ fun w hw ha => ?_, grows_push _ _, rfl, rfl⟩
  refine .one ha (by simp) rfl rfl ?_
  have := hw _ _ hx
  simp only [gateValue, lin, Matrix.cons_val_zero, Matrix.cons_val_one, Matrix.cons_val, this]
  ring

theorem lookup_mem [DecidableEq F] {l : List (F × Nat)} {x : F} {i : Nat} (h : l.lookup x = some i) : (x, i) ∈ l := by
  induction l with
  | nil => cases h
  | cons y l ih =>
    rw [List.lookup_cons] at h
    by_cases e : x = y.1
    · rw [e, beq_self_eq_true] at h
      cases h
      rw [e]; exact List.mem_cons_self
    · rw [beq_false_of_ne e] at h
      exact List.mem_cons_of_mem _ (ih h)

theorem Honest.putConstant [DecidableEq F] {s : Draft F} {P : List Nat} (h : Honest toNat s P none) (x : F) :
    ∃ s' i, s.putConstant x = .ok (s', i) ∧ Honest toNat s' P none ∧ Grows s s' ∧ s'.vars[i]? = some x := by
  rw [Draft.putConstant]
  cases hl : s.constants.lookup x with
  | some i => exact ⟨s, i, rfl, h, .refl s, h.consts x i (lookup_mem hl)⟩
  | none =>
    obtain ⟨s', hs, hh, hg, hv, hc⟩ := (h.addVariable x).fixWitness (get_new s x)
    have hi : s'.vars[s.vars.length]? = some x := by rw [hv]; exact get_new s x
    refine ⟨_, _, bind_ok.2 ⟨s', hs, rfl⟩, ⟨⟨hh.inv.real_len, hh.inv.tags_len, hh.inv.zero_lt, hh.inv.real_lt, hh.inv.real_idem, hh.inv.list_tag, hh.inv.tag_list, hh.inv.nums, hh.inv.targets, hh.inv.small, hh.inv.nums_le, hh.inv.tau_zero, hh.inv.tau⟩, hh.ident, hh.arith, hh.zero, ?_, hh.lists, hh.placed⟩, ?_, hi⟩
    · intro y i hy
      rcases List.mem_cons.1 hy with e | hy
      · cases e; exact hi
      · exact hh.consts y i hy
    · have := (grows_addVariable s x).trans hg
      exact ⟨this.vars, this.zero, this.inputs, this.arith, this.delta⟩

end Verif.Honk.Draft
