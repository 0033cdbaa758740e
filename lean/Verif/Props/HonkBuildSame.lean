import Verif.Honk.BuildSame
import Verif.Props.HonkBuild

/-!
# The circuit of a Noir program does not depend on the witness
-/

namespace Verif.Honk

open Acvm (Expression Input Opcode)
open Draft (Sim)

variable {F : Type} [CommRing F] [DecidableEq F]

/-- Two circuits that differ at most in the values of their variables and in whether there is a witness. -/
def EqualUpToValues (t t' : Draft F) : Prop := t.vars.length = t'.vars.length ∧ t' = { t with vars := t'.vars, vkMode := t'.vkMode }

/-- Two keys that differ at most in the wires and the values of the public inputs: all that the verification key commits to is the same. -/
def EqualUpToWires (k k' : Key F) : Prop := k' = { k with wires := k'.wires, publicInputs := k'.publicInputs }

/-- The circuit made without a witness, for the verification key, and the circuits made by provers with any witnesses are the same up
to the values of the variables.  If the witnesses have the right number of values, the builder fails for none or for all, with the same error. -/
theorem C114_circuit (toNat : F → Nat) (ops : List (Opcode F)) (inputs : List Nat) {witness witness' extra extra' : List F}
    (h : witness = [] ∨ witness.length = Draft.maxWitness inputs ops + 1) (h' : witness' = [] ∨ witness'.length = Draft.maxWitness inputs ops + 1)
    (he : extra.length = extra'.length) :
    (∃ t t', Draft.createCircuit toNat ops inputs witness extra = .ok t ∧ Draft.createCircuit toNat ops inputs witness' extra' = .ok t' ∧
      EqualUpToValues t t') ∨
    ∃ e, Draft.createCircuit toNat ops inputs witness extra = .error e ∧ Draft.createCircuit toNat ops inputs witness' extra' = .error e := by
  have hs := Draft.createCircuit_same toNat ops inputs h h' he
  generalize Draft.createCircuit toNat ops inputs witness extra = x at *
  generalize Draft.createCircuit toNat ops inputs witness' extra' = y at *
  cases hs with
  | error e => exact .inr ⟨e, rfl, rfl⟩
  | @ok t t' hs =>
    refine .inl ⟨t, t', rfl, rfl, hs.vars, ?_⟩
    obtain ⟨v, a1, a2, a3, a4, a5, a6, a7, a8, a9, a10, a11, a12⟩ := hs
    obtain ⟨⟩ := t
    obtain ⟨⟩ := t'
    simp only at *
    subst a1 a2 a3 a4 a5 a6 a7 a8 a9 a10 a11 a12
    rfl

/-- A witness of the wrong length is rejected. -/
theorem C114_length (toNat : F → Nat) (ops : List (Opcode F)) (inputs : List Nat) {witness extra : List F} {t : Draft F}
    (h : Draft.createCircuit toNat ops inputs witness extra = .ok t) : witness = [] ∨ witness.length = Draft.maxWitness inputs ops + 1 := by
  rw [Draft.createCircuit] at h
  obtain ⟨af, -, h⟩ := Draft.bind_ok.1 h
  obtain ⟨_, h1, h2⟩ := Draft.bind_ok.1 h
  exact of_decide_eq_true (Draft.check_ok.1 h1)

omit [DecidableEq F] [CommRing F] in
theorem populateCell_same (c : Builder F) {xs : List F} (hl : c.vars.length = xs.length) (n : Nat) {a b : Trace F} (h : a.cycles = b.cycles)
    (x : Cell × Nat) : Sim (fun a b => a.cycles = b.cycles) (populateCell c n a x) (populateCell { c with vars := xs } n b x) := by
  rw [populateCell, populateCell, ← hl, h]
  refine (Sim.refl _).bind fun r _ e => ?_
  subst e
  by_cases c1 : c.vars.length ≤ x.2
  · simp only [if_pos c1]; exact .error _
  simp only [if_neg c1]
  by_cases c2 : n ≤ x.1.2
  · simp only [if_pos c2]; exact .error _
  simp only [if_neg c2]
  refine (Draft.index_sim hl r).bind fun _ _ _ => (Sim.refl _).bind fun cy _ e => ?_
  subst e
  exact .ok (by simp)

omit [DecidableEq F] in
/-- With other values the key is the same up to the wires, or the creation of the key fails with the same error. -/
theorem C114_key (c : Builder F) {xs : List F} (hl : c.vars.length = xs.length) :
    (∃ k k', createKey c = .ok k ∧ createKey { c with vars := xs } = .ok k' ∧ EqualUpToWires k k') ∨
    ∃ e, createKey c = .error e ∧ createKey { c with vars := xs } = .error e := by
  have hs : Sim EqualUpToWires (createKey c) (createKey { c with vars := xs }) := by
    rw [createKey, createKey]
    refine Sim.bind (R := Eq) (Sim.refl _) fun act _ e => ?_
    subst e
    refine Sim.bind (R := fun a b : Trace F => a.cycles = b.cycles)
      (Sim.foldlM_same (R := fun a b : Trace F => a.cycles = b.cycles) (fun a b hab x => populateCell_same c hl _ hab x) _
        (by rw [hl])) fun a b hab => ?_
    rw [hab]
    refine Sim.bind (R := Eq) (Sim.refl _) fun m _ e => ?_
    subst e
    refine Sim.bind (R := Eq) (Sim.refl _) fun sg _ e => ?_
    subst e
    refine Sim.bind (R := Eq) (Sim.refl _) fun id _ e => ?_
    subst e
    by_cases c1 : c.dyadicSize ≤ c.finalActive
    · rw [if_pos c1]
      have c2 : Builder.dyadicSize { c with vars := xs } ≤ Builder.finalActive { c with vars := xs } := c1
      rw [if_pos c2]
      exact .error _
    · rw [if_neg c1]
      have c2 : ¬ Builder.dyadicSize { c with vars := xs } ≤ Builder.finalActive { c with vars := xs } := c1
      rw [if_neg c2]
      exact .ok rfl
  generalize createKey c = x at *
  generalize createKey { c with vars := xs } = y at *
  cases hs with
  | error e => exact .inr ⟨e, rfl, rfl⟩
  | @ok k k' hs => exact .inl ⟨k, k', rfl, rfl, hs⟩

namespace BuildDemo

theorem wlen : Draft.maxWitness [2] ops + 1 = 3 := by decide +kernel

/-- The circuits for the verification key and for a witness, and their keys. -/
example : ∃ t', Draft.createCircuit ZMod.val ops [2] [] [] = .ok t' ∧ EqualUpToValues t t' ∧
    ∃ k', createKey (t'.toBuilder [] [] 0) = .ok k' ∧ EqualUpToWires key k' := by
  rcases C114_circuit (witness := [2, 3, 6]) (witness' := []) ZMod.val ops [2] (.inr wlen.symm) (.inl rfl) (extra := []) (extra' := []) rfl with
    ⟨t0, t', h, h', hs⟩ | ⟨e, h, -⟩
  · obtain rfl : t = t0 := Except.ok.inj (t_ok.symm.trans h)
    refine ⟨t', h', hs, ?_⟩
    have e : t'.toBuilder [] [] 0 = { t.toBuilder [] [] 0 with vars := t'.vars } := by rw [hs.2]; rfl
    rw [e]
    rcases C114_key (t.toBuilder [] [] 0) (xs := t'.vars) hs.1 with ⟨k, k', h1, h2, h3⟩ | ⟨e, h1, -⟩
    · obtain rfl : key = k := Except.ok.inj (key_ok.symm.trans h1)
      exact ⟨k', h2, h3⟩
    · rw [key_ok] at h1; cases h1
  · rw [t_ok] at h; cases h

end BuildDemo

end Verif.Honk
