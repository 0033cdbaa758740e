import Verif.Honk.BuildAcir

/-!
# Lemmas: the circuit does not depend on the witness
-/

namespace Verif.Honk.Draft

open Acvm (Expression Input Opcode)

variable {F : Type}

/-- Two circuits that differ in the values of their variables only. -/
structure Same (s t : Draft F) : Prop where
  vars : s.vars.length = t.vars.length
  next : s.next = t.next
  prev : s.prev = t.prev
  real : s.real = t.real
  tags : s.tags = t.tags
  tag : s.tag = t.tag
  inputs : s.inputs = t.inputs
  tau : s.tau = t.tau
  constants : s.constants = t.constants
  zero : s.zeroIdx = t.zeroIdx
  arith : s.arith = t.arith
  delta : s.delta = t.delta
  ranges : s.rangeLists = t.rangeLists

/-- Two computations that end in the same error, or in related results. -/
inductive Sim {α β : Type} (R : α → β → Prop) : Except Err α → Except Err β → Prop
  | ok {a b} : R a b → Sim R (.ok a) (.ok b)
  | error (e) : Sim R (.error e) (.error e)

theorem Sim.bind {α β α' β' : Type} {R : α → β → Prop} {R' : α' → β' → Prop} {x : Except Err α} {y : Except Err β} {f : α → Except Err α'}
    {g : β → Except Err β'} (h : Sim R x y) (hf : ∀ a b, R a b → Sim R' (f a) (g b)) : Sim R' (x >>= f) (y >>= g) := by
  cases h with
  | ok h => exact hf _ _ h
  | error e => exact .error e

theorem Sim.refl {α : Type} (x : Except Err α) : Sim Eq x x := by
  cases x with
  | ok a => exact .ok rfl
  | error e => exact .error e

theorem Sim.foldlM {α β γ δ : Type} {R : α → β → Prop} {S : γ → δ → Prop} {f : α → γ → Except Err α} {g : β → δ → Except Err β}
    (hf : ∀ a b, R a b → ∀ c d, S c d → Sim R (f a c) (g b d)) : ∀ {l : List γ} {m : List δ}, List.Forall₂ S l m → ∀ {a b}, R a b →
    Sim R (l.foldlM f a) (m.foldlM g b)
  | _, _, .nil, _, _, h => .ok h
  | _, _, .cons hc hl, a, b, h => by
    rw [List.foldlM_cons, List.foldlM_cons]
    exact (hf a b h _ _ hc).bind fun a' b' h' => Sim.foldlM hf hl h'

theorem Sim.foldlM_same {α β γ : Type} {R : α → β → Prop} {f : α → γ → Except Err α} {g : β → γ → Except Err β}
    (hf : ∀ a b, R a b → ∀ c, Sim R (f a c) (g b c)) (l : List γ) {a b} (h : R a b) : Sim R (l.foldlM f a) (l.foldlM g b) :=
  Sim.foldlM (S := Eq) (fun a b hab c d e => e ▸ hf a b hab c) (List.forall₂_same.2 fun _ _ => rfl) h

theorem Sim.mapM {α β γ δ : Type} {R : α → β → Prop} {S : γ → δ → Prop} {f : γ → Except Err α} {g : δ → Except Err β}
    (hf : ∀ c d, S c d → Sim R (f c) (g d)) : ∀ {l : List γ} {m : List δ}, List.Forall₂ S l m → Sim (List.Forall₂ R) (l.mapM f) (m.mapM g)
  | _, _, .nil => .ok .nil
  | _, _, .cons hc hl => by
    rw [List.mapM_cons, List.mapM_cons]
    exact (hf _ _ hc).bind fun a b h => (Sim.mapM hf hl).bind fun l m hl => .ok (.cons h hl)

theorem Same.push {s t : Draft F} (h : Same s t) (g : Gate F) : Same (s.pushArith g) (t.pushArith g) :=
  { h with arith := congrArg (· ++ [g]) h.arith }

theorem Same.pushDelta {s t : Draft F} (h : Same s t) (g : Gate F) : Same (s.pushDelta g) (t.pushDelta g) :=
  { h with delta := congrArg (· ++ [g]) h.delta }

theorem Same.addVariable {s t : Draft F} (h : Same s t) (x y : F) : Same (s.addVariable x) (t.addVariable y) :=
  { h with
    vars := by simp [Draft.addVariable, h.vars]
    next := by simp [Draft.addVariable, h.next]
    prev := by simp [Draft.addVariable, h.prev]
    real := by simp [Draft.addVariable, h.vars, h.real]
    tags := by simp [Draft.addVariable, h.tags] }

theorem Same.checkValid {s t : Draft F} (h : Same s t) (vs : List Nat) : Sim Eq (s.checkValid vs) (t.checkValid vs) := by
  rw [Draft.checkValid, Draft.checkValid, h.vars]; exact .refl _

theorem index_sim {l m : List F} (h : l.length = m.length) (i : Nat) : Sim (fun _ _ => True) (index l i) (index m i) := by
  rw [index, index]
  by_cases hi : i < l.length
  · rw [List.getElem?_eq_getElem hi, List.getElem?_eq_getElem (h ▸ hi)]; exact .ok trivial
  · rw [List.getElem?_eq_none (by omega), List.getElem?_eq_none (by omega)]; exact .error _

theorem Same.getVariable {s t : Draft F} (h : Same s t) (i : Nat) : Sim (fun _ _ => True) (s.getVariable i) (t.getVariable i) := by
  rw [Draft.getVariable, Draft.getVariable, h.vars, h.real]
  exact (Sim.refl _).bind fun _ _ _ => (Sim.refl _).bind fun r _ e => e ▸ index_sim h.vars r

section

variable [CommRing F]

theorem Same.fixWitness {s t : Draft F} (h : Same s t) (v : Nat) (x : F) : Sim Same (s.fixWitness v x) (t.fixWitness v x) := by
  rw [Draft.fixWitness, Draft.fixWitness, h.zero]
  exact (h.checkValid _).bind fun _ _ _ => .ok (h.push _)

theorem Same.putConstant [DecidableEq F] {s t : Draft F} (h : Same s t) (x : F) :
    Sim (fun a b => Same a.1 b.1 ∧ a.2 = b.2) (s.putConstant x) (t.putConstant x) := by
  rw [Draft.putConstant, Draft.putConstant, h.constants]
  cases t.constants.lookup x with
  | some i => exact .ok ⟨h, rfl⟩
  | none =>
    simp only [h.vars]
    exact ((h.addVariable x x).fixWitness _ x).bind fun a b hab =>
      .ok ⟨{ hab with constants := congrArg ((x, t.vars.length) :: ·) hab.constants }, rfl⟩

theorem Same.bigGate {s t : Draft F} (h : Same s t) (q : Quad F Nat) (b : Bool) : Sim Same (s.bigGate q b) (t.bigGate q b) := by
  rw [Draft.bigGate, Draft.bigGate]
  exact (h.checkValid _).bind fun _ _ _ => .ok (h.push _)

theorem Same.addGate {s t : Draft F} (h : Same s t) (a b c : Nat) (qa qb qc k : F) :
    Sim Same (s.addGate a b c qa qb qc k) (t.addGate a b c qa qb qc k) := by
  rw [Draft.addGate, Draft.addGate, h.zero]; exact h.bigGate _ _

theorem Same.assignTag {s t : Draft F} (h : Same s t) (v tag : Nat) : Sim Same (s.assignTag v tag) (t.assignTag v tag) := by
  rw [Draft.assignTag, Draft.assignTag, h.tag, h.real, h.tags]
  refine (Sim.refl _).bind fun _ _ _ => (Sim.refl _).bind fun r _ e => e ▸ (Sim.refl _).bind fun old _ e => ?_
  subst e
  by_cases c : old = tag
  · rw [if_pos c, if_pos c]; exact .ok h
  · rw [if_neg c, if_neg c]
    exact (Sim.refl _).bind fun _ _ _ => .ok ⟨h.vars, h.next, h.prev, rfl, rfl, rfl, h.inputs, h.tau, h.constants, h.zero, h.arith, h.delta, h.ranges⟩

theorem Same.addTagged {s t : Draft F} (h : Same s t) (tag : Nat) (x y : F) : Sim Same (s.addTagged tag x) (t.addTagged tag y) := by
  rw [Draft.addTagged, Draft.addTagged, h.vars]; exact (h.addVariable x y).assignTag _ _

theorem Same.dummyConstraints {s t : Draft F} (h : Same s t) (vs : List Nat) : Sim Same (s.dummyConstraints vs) (t.dummyConstraints vs) := by
  rw [Draft.dummyConstraints, Draft.dummyConstraints, h.zero, h.arith]
  exact (h.checkValid _).bind fun _ _ _ => (h.checkValid _).bind fun _ _ _ => .ok ⟨h.vars, h.next, h.prev, h.real, h.tags, h.tag, h.inputs, h.tau, h.constants,
    rfl, rfl, h.delta, h.ranges⟩

theorem Same.createRangeList {s t : Draft F} (h : Same s t) (target : Nat) :
    Sim (fun a b => Same a.1 b.1 ∧ a.2 = b.2) (s.createRangeList target) (t.createRangeList target) := by
  rw [Draft.createRangeList, Draft.createRangeList]
  simp only [h.vars, h.tag, h.tau]
  have h0 : Same { s with tag := t.tag + 2, tau := (t.tag + 2, t.tag + 1) :: (t.tag + 1, t.tag + 2) :: t.tau }
      { t with tag := t.tag + 2, tau := (t.tag + 2, t.tag + 1) :: (t.tag + 1, t.tag + 2) :: t.tau } :=
    ⟨h.vars, h.next, h.prev, h.real, h.tags, rfl, h.inputs, rfl, h.constants, h.zero, h.arith, h.delta, h.ranges⟩
  refine (Sim.foldlM_same (R := Same) (fun a b hab c => hab.addTagged _ c c) _ h0).bind fun a b hab => ?_
  exact (hab.dummyConstraints _).bind fun a b hab => .ok ⟨hab, rfl⟩

theorem Same.ensureRange {s t : Draft F} (h : Same s t) (target : Nat) : Sim Same (s.ensureRange target) (t.ensureRange target) := by
  rw [Draft.ensureRange, Draft.ensureRange, h.ranges]
  cases t.rangeLists.find? (·.target = target) with
  | some _ => exact .ok h
  | none => exact (h.createRangeList target).bind fun a b hab => .ok { hab.1 with
    ranges := by show insertRange _ a.1.rangeLists = insertRange _ b.1.rangeLists; rw [hab.2, hab.1.ranges] }

theorem Same.newRange (target : Nat) : ∀ (fuel : Nat) {s t : Draft F} (_ : Same s t) (v : Nat), Sim Same (s.newRange v target fuel) (t.newRange v target fuel)
  | 0, _, _, _, _ => .error _
  | fuel + 1, s, t, h, v => by
    rw [Draft.newRange, Draft.newRange]
    refine (h.ensureRange target).bind fun s t h => ?_
    rw [h.real, h.tags, h.ranges]
    refine (Sim.refl _).bind fun r _ e => e ▸ (Sim.refl _).bind fun old _ e => ?_
    subst e
    cases t.rangeLists.find? (·.target = target) with
    | none => exact .error _
    | some list =>
      simp only
      by_cases c1 : old = list.tag
      · rw [if_pos c1, if_pos c1]; exact .ok h
      rw [if_neg c1, if_neg c1]
      by_cases c2 : old ≠ 0
      · rw [if_pos c2, if_pos c2]
        cases t.rangeLists.find? (·.tag = old) with
        | none => exact .error _
        | some l =>
          simp only
          by_cases c3 : l.target < target
          · rw [if_pos c3, if_pos c3]; exact .ok h
          rw [if_neg c3, if_neg c3]
          refine (h.getVariable v).bind fun x y _ => ?_
          rw [h.vars, h.zero]
          exact ((h.addVariable x y).addGate _ _ _ _ _ _ _).bind fun a b hab => Same.newRange target fuel hab _
      · rw [if_neg c2, if_neg c2]
        exact (h.assignTag v _).bind fun a b hab => .ok { hab with ranges := by rw [hab.ranges] }

/-- Limbs with the same variables. -/
def SameLimbs (a b : List (Nat × F)) : Prop := List.Forall₂ (fun x y => x.1 = y.1) a b

omit [CommRing F] in
theorem SameLimbs.getD {a b : List (Nat × F)} (h : SameLimbs a b) (i : Nat) {d e : Nat × F} (hd : d.1 = e.1) : (a.getD i d).1 = (b.getD i e).1 := by
  induction h generalizing i with
  | nil => simpa using hd
  | cons hx _ ih => cases i with
    | zero => exact hx
    | succ i => simpa using ih i

theorem Same.limbGate (bits triples : Nat) {a b : List (Nat × F)} (hl : SameLimbs a b) {st st' : Draft F × F × Nat} (h : Same st.1 st'.1)
    (hv : st.2.2 = st'.2.2) (i : Nat) :
    Sim (fun x y => Same x.1 y.1 ∧ x.2.2 = y.2.2) (Draft.limbGate bits a triples st i) (Draft.limbGate bits b triples st' i) := by
  rw [Draft.limbGate, Draft.limbGate]
  have e := fun j => hl.getD (3 * i + j) (d := (st.1.zeroIdx, 0)) (e := (st'.1.zeroIdx, 0)) h.zero
  simp only [e, hv]
  refine (h.bigGate _ _).bind fun s t h => ?_
  by_cases c : i + 1 ≠ triples
  · rw [if_pos c, if_pos c]; exact .ok ⟨h.addVariable _ _, h.vars⟩
  · rw [if_neg c, if_neg c]; exact .ok ⟨h, hv⟩

theorem Same.addLimb {st st' : Draft F × List (Nat × F)} (h : Same st.1 st'.1) (hl : SameLimbs st.2 st'.2) {x y : F × Nat} (hx : x.2 = y.2) :
    Sim (fun a b => Same a.1 b.1 ∧ SameLimbs a.2 b.2) (Draft.addLimb st x) (Draft.addLimb st' y) := by
  rw [Draft.addLimb, Draft.addLimb, h.vars, hx]
  exact (Same.newRange _ _ (h.addVariable x.1 y.1) _).bind fun a b hab =>
    .ok ⟨hab, List.rel_append hl (.cons rfl .nil)⟩

theorem Same.limbedRange (toNat : F → Nat) {s t : Draft F} (h : Same s t) (v num bits : Nat) :
    Sim Same (s.limbedRange toNat v num bits) (t.limbedRange toNat v num bits) := by
  rw [Draft.limbedRange, Draft.limbedRange, h.vars]
  refine (Sim.refl _).bind fun _ _ _ => (Sim.refl _).bind fun _ _ _ => (h.getVariable v).bind fun x y _ => ?_
  have hl : List.Forall₂ (fun a b : F × Nat => a.2 = b.2) ((limbsOf (toNat x) num bits).map fun x => ((x.1 : F), x.2))
      ((limbsOf (toNat y) num bits).map fun x => ((x.1 : F), x.2)) := by
    rw [limbsOf, limbsOf, List.map_map, List.map_map, List.forall₂_map_left_iff, List.forall₂_map_right_iff]
    exact List.forall₂_same.2 fun _ _ => rfl
  have hlen := hl.length_eq
  have h0 : Same (s, ([] : List (Nat × F))).1 (t, ([] : List (Nat × F))).1 ∧ SameLimbs (s, ([] : List (Nat × F))).2 (t, ([] : List (Nat × F))).2 :=
    ⟨h, .nil⟩
  refine (Sim.foldlM (R := fun a b => Same a.1 b.1 ∧ SameLimbs a.2 b.2) (fun a b hab c d hcd => hab.1.addLimb hab.2 hcd) hl h0).bind fun a b hab => ?_
  rw [hlen]
  exact (Sim.foldlM_same (R := fun x y => Same x.1 y.1 ∧ x.2.2 = y.2.2) (fun p q hpq c => Same.limbGate _ _ hab.2 hpq.1 hpq.2 c) _
    ⟨hab.1, rfl⟩).bind fun p q hpq => .ok hpq.1

theorem Same.dyadicRange (toNat : F → Nat) {s t : Draft F} (h : Same s t) (v num : Nat) :
    Sim Same (s.dyadicRange toNat v num) (t.dyadicRange toNat v num) := by
  rw [Draft.dyadicRange, Draft.dyadicRange, Draft.boolGate, Draft.boolGate, h.zero]
  by_cases c1 : num = 1
  · rw [if_pos c1, if_pos c1]; exact .ok (h.push _)
  rw [if_neg c1, if_neg c1]
  by_cases c2 : num ≤ 14
  · rw [if_pos c2, if_pos c2]; exact Same.newRange _ _ (h.push _) _
  · rw [if_neg c2, if_neg c2]; exact h.limbedRange _ _ _ _

theorem Same.sortConstraint {s t : Draft F} (h : Same s t) (vs : List Nat) (x y : F) :
    Sim Same (s.sortConstraint vs x y) (t.sortConstraint vs x y) := by
  rw [Draft.sortConstraint, Draft.sortConstraint, h.zero]
  refine (Sim.refl _).bind fun _ _ _ => (h.checkValid _).bind fun _ _ _ => (h.addGate _ _ _ _ _ _ _).bind fun s t h => ?_
  simp only [h.delta, h.zero]
  refine Same.addGate (Same.pushDelta ?_ _) _ _ _ _ _ _ _
  exact ⟨h.vars, h.next, h.prev, h.real, h.tags, h.tag, h.inputs, h.tau, h.constants, rfl, h.arith, rfl, h.ranges⟩

theorem Same.processRange (toNat : F → Nat) {s t : Draft F} (h : Same s t) (l : RangeList) :
    Sim Same (s.processRange toNat l) (t.processRange toNat l) := by
  rw [Draft.processRange, Draft.processRange, h.real]
  refine (h.checkValid _).bind fun _ _ _ => (Sim.refl _).bind fun _ _ _ => (Sim.refl _).bind fun reals _ e => ?_
  subst e
  refine (Sim.mapM (R := fun _ _ => True) (fun c d (e : c = d) => by subst e; exact h.getVariable c) (List.forall₂_same.2 fun _ _ => rfl)).bind fun xs ys hxy => ?_
  have hl : (sortValues toNat xs (Nat.log 2 (2 ^ Nat.clog 2 (l.target + 1)))).length =
      (sortValues toNat ys (Nat.log 2 (2 ^ Nat.clog 2 (l.target + 1)))).length := by
    simp [sortValues, List.length_insertionSort, hxy.length_eq]
  refine (Sim.foldlM (S := fun _ _ => True) (R := Same) (fun a b hab c d _ => hab.addTagged _ c d)
    (List.forall₂_iff_get.2 ⟨hl, fun _ _ _ => trivial⟩) h).bind fun a b hab => ?_
  rw [hl, hab.zero, h.vars]
  exact hab.sortConstraint _ _ _

theorem Same.processRanges (toNat : F → Nat) {s t : Draft F} (h : Same s t) : Sim Same (s.processRanges toNat) (t.processRanges toNat) := by
  rw [Draft.processRanges, Draft.processRanges, h.ranges]
  exact Sim.foldlM_same (fun a b hab c => hab.processRange toNat c) _ h

variable [DecidableEq F]

theorem Same.setZero {s t : Draft F} (h : Same s t) (q : Quad F (Option Nat)) : Sim Eq (s.setZero q) (t.setZero q) := by
  have : ∀ i (x : F), s.resolve i x = t.resolve i x := fun i x => by cases i <;> simp [Draft.resolve, h.zero]
  rw [Draft.setZero, Draft.setZero]
  simp only [this]; exact .refl _

theorem Same.quadConstraint {s t : Draft F} (h : Same s t) (q : Quad F (Option Nat)) : Sim Same (s.quadConstraint q) (t.quadConstraint q) := by
  rw [Draft.quadConstraint, Draft.quadConstraint]
  exact (h.setZero q).bind fun a b e => e ▸ h.bigGate _ _

theorem Same.bigQuad : ∀ (n : Nat) (l : List (Quad F (Option Nat))) (_ : l.length ≤ n) {s t : Draft F} (_ : Same s t),
    Sim Same (s.bigQuadConstraint l) (t.bigQuadConstraint l)
  | _, [], _, s, t, _ => by rw [Draft.bigQuadConstraint, Draft.bigQuadConstraint]; exact .error _
  | _, [q], _, s, t, h => by rw [Draft.bigQuadConstraint, Draft.bigQuadConstraint]; exact h.quadConstraint q
  | n + 1, q :: q' :: qs, hn, s, t, h => by
    rw [Draft.bigQuadConstraint, Draft.bigQuadConstraint]
    refine (h.setZero q).bind fun g _ e => e ▸ (h.bigGate g true).bind fun s t h => (h.getVariable _).bind fun _ _ _ =>
      (h.getVariable _).bind fun _ _ _ => (h.getVariable _).bind fun _ _ _ => (h.getVariable _).bind fun _ _ _ => ?_
    rw [h.vars]
    exact Same.bigQuad n _ (by simpa using hn) (h.addVariable _ _)

theorem Same.addDefaultInputs {s t : Draft F} (h : Same s t) : Sim Same s.addDefaultInputs t.addDefaultInputs := by
  rw [Draft.addDefaultInputs, Draft.addDefaultInputs]
  refine Sim.foldlM_same (R := Same) (fun a b hab _ => ?_) _ h
  rw [hab.vars]
  refine Same.fixWitness (s := a.addPublicVariable 0) (t := b.addPublicVariable 0) ?_ _ _
  have h := hab.addVariable 0 0
  exact ⟨h.vars, h.next, h.prev, h.real, h.tags, h.tag, by rw [addPublicVariable, addPublicVariable, hab.inputs, hab.vars], h.tau, h.constants,
    h.zero, h.arith, h.delta, h.ranges⟩

theorem Same.buildConstraints (toNat : F → Nat) {s t : Draft F} (h : Same s t) (af : AcirFormat F) :
    Sim Same (s.buildConstraints toNat af) (t.buildConstraints toNat af) := by
  rw [Draft.buildConstraints, Draft.buildConstraints]
  refine (Sim.foldlM_same (fun a b hab c => hab.quadConstraint c) _ h).bind fun s t h => ?_
  refine (Sim.foldlM_same (fun a b hab c => Same.bigQuad _ c le_rfl hab) _ h).bind fun s t h => ?_
  refine (Sim.foldlM_same (R := Same) (fun a b hab c => hab.dyadicRange toNat c.1 c.2) _ h).bind fun s t h => ?_
  exact h.addDefaultInputs

omit [CommRing F] [DecidableEq F] in
theorem Same.addVariables : ∀ {xs ys : List F} {s t : Draft F}, xs.length = ys.length → Same s t → Same (xs.foldl Draft.addVariable s) (ys.foldl Draft.addVariable t)
  | [], [], _, _, _, h => h
  | x :: xs, y :: ys, _, _, e, h => Same.addVariables (xs := xs) (ys := ys) (by simpa using e) (h.addVariable x y)

theorem Same.addFillers {s t : Draft F} (h : Same s t) {xs ys : List F} (hl : xs.length = ys.length) : Sim Same (s.addFillers xs) (t.addFillers ys) := by
  rw [Draft.addFillers, Draft.addFillers, h.zero]
  refine (Same.putConstant (((h.push _).pushDelta _).pushDelta _) 1).bind fun a b hab => ?_
  obtain ⟨a, i⟩ := a
  obtain ⟨b, j⟩ := b
  obtain ⟨hab, rfl⟩ : Same a b ∧ i = j := hab
  simp only [hab.zero]
  exact (hab.bigGate _ _).bind fun s t h => .ok (h.addVariables hl)

theorem init_same {xs ys : List F} (hl : xs.length = ys.length) (inputs : List Nat) (b b' : Bool) : Sim Same (init xs inputs b) (init ys inputs b') := by
  rw [init, init]
  have h : Same (xs.foldl Draft.addVariable (empty b)) (ys.foldl Draft.addVariable (empty b')) :=
    Same.addVariables hl ⟨rfl, rfl, rfl, rfl, rfl, rfl, rfl, rfl, rfl, rfl, rfl, rfl, rfl⟩
  have h' : Same { xs.foldl Draft.addVariable (empty b) with inputs := inputs } { ys.foldl Draft.addVariable (empty b') with inputs := inputs } :=
    ⟨h.vars, h.next, h.prev, h.real, h.tags, h.tag, rfl, h.tau, h.constants, h.zero, h.arith, h.delta, h.ranges⟩
  refine (h'.putConstant 0).bind fun a b hab => ?_
  obtain ⟨a, i⟩ := a
  obtain ⟨b, j⟩ := b
  obtain ⟨k, rfl⟩ : Same a b ∧ i = j := hab
  exact .ok ⟨k.vars, k.next, k.prev, k.real, k.tags, k.tag, k.inputs, congrArg ((0, 0) :: ·) k.tau, k.constants, rfl, k.arith, k.delta, k.ranges⟩

/-- Without a witness and with any witness of the right length the circuits are the same, or the errors are. -/
theorem createCircuit_same (toNat : F → Nat) (ops : List (Opcode F)) (inputs : List Nat) {witness witness' extra extra' : List F}
    (h : witness = [] ∨ witness.length = maxWitness inputs ops + 1) (h' : witness' = [] ∨ witness'.length = maxWitness inputs ops + 1)
    (he : extra.length = extra'.length) :
    Sim Same (createCircuit toNat ops inputs witness extra) (createCircuit toNat ops inputs witness' extra') := by
  rw [createCircuit, createCircuit]
  refine (Sim.refl _).bind fun af _ e => ?_
  subst e
  have hc : ∀ w : List F, w = [] ∨ w.length = maxWitness inputs ops + 1 →
      check (decide (w = [] ∨ w.length = maxWitness inputs ops + 1)) "ACIR witness size does not match max witness index" = .ok () := fun w hw => by
    rw [check, if_pos (decide_eq_true hw)]
  have hl : ∀ w : List F, w = [] ∨ w.length = maxWitness inputs ops + 1 →
      (if w = [] then List.replicate (maxWitness inputs ops + 1) 0 else w).length = maxWitness inputs ops + 1 := fun w hw => by
    by_cases hn : w = []
    · rw [if_pos hn]; simp
    · rw [if_neg hn]; exact hw.resolve_left hn
  simp only [hc witness h, hc witness' h']
  refine Sim.bind (R := Eq) (.ok rfl) fun _ _ _ => ?_
  refine (init_same ((hl _ h).trans (hl _ h').symm) inputs _ _).bind fun s t h => ?_
  exact (h.buildConstraints toNat af).bind fun s t h => (h.addFillers he).bind fun s t h => h.processRanges toNat

end

end Verif.Honk.Draft
