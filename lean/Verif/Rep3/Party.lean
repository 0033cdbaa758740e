import Verif.Net.MPC
import Mathlib.Data.Fintype.Basic

/-!
# The three parties and their network primitives

Models `/repo/mpc-core/src/protocols/rep3/id.rs` and `/repo/mpc-core/src/protocols/rep3/network.rs`.
-/

namespace Verif

/-- `/repo/mpc-core/src/protocols/rep3/id.rs:9-16` -/
inductive PartyID where
  | ID0 | ID1 | ID2
  deriving DecidableEq, Repr

instance : Fintype PartyID where
  elems := {PartyID.ID0, PartyID.ID1, PartyID.ID2}
  complete := fun i => by cases i <;> decide

namespace PartyID

/-- `/repo/mpc-core/src/protocols/rep3/id.rs:32-38` -/
def next : PartyID → PartyID
  | ID0 => ID1
  | ID1 => ID2
  | ID2 => ID0

/-- `/repo/mpc-core/src/protocols/rep3/id.rs:41-47` -/
def prev : PartyID → PartyID
  | ID0 => ID2
  | ID1 => ID0
  | ID2 => ID1

/-- Index 0, 1, 2; `/repo/mpc-core/src/protocols/rep3/id.rs:72-77` -/
def toNat : PartyID → Nat
  | ID0 => 0
  | ID1 => 1
  | ID2 => 2

/-- `TryFrom<usize>`; `/repo/mpc-core/src/protocols/rep3/id.rs:50-61` -/
def ofNat? : Nat → Option PartyID
  | 0 => some ID0
  | 1 => some ID1
  | 2 => some ID2
  | _ => none

@[simp] theorem next_prev (i : PartyID) : i.prev.next = i := by cases i <;> rfl
@[simp] theorem prev_next (i : PartyID) : i.next.prev = i := by cases i <;> rfl
@[simp] theorem ID0_prev : ID0.prev = ID2 := rfl
@[simp] theorem ID1_prev : ID1.prev = ID0 := rfl
@[simp] theorem ID2_prev : ID2.prev = ID1 := rfl
@[simp] theorem ID0_next : ID0.next = ID1 := rfl
@[simp] theorem ID1_next : ID1.next = ID2 := rfl
@[simp] theorem ID2_next : ID2.next = ID0 := rfl

theorem forall_iff {p : PartyID → Prop} : (∀ i, p i) ↔ p ID0 ∧ p ID1 ∧ p ID2 :=
  ⟨fun h => ⟨h _, h _, h _⟩, fun ⟨a, b, c⟩ i => by cases i <;> assumption⟩

end PartyID

open PartyID

/-- A function on parties given by its three values. -/
def three {α : Type} (a b c : α) : PartyID → α
  | ID0 => a
  | ID1 => b
  | ID2 => c

@[simp] theorem three_0 {α : Type} (a b c : α) : three a b c ID0 = a := rfl
@[simp] theorem three_1 {α : Type} (a b c : α) : three a b c ID1 = b := rfl
@[simp] theorem three_2 {α : Type} (a b c : α) : three a b c ID2 = c := rfl

theorem three_eta {α : Type} (f : PartyID → α) : three (f ID0) (f ID1) (f ID2) = f := by
  funext i; cases i <;> rfl

section Symbolic

/-! ## Symbolic execution of three parties

`W3` describes a state in the middle of a run by the three remaining programs and the six channels;
the rules below execute one action and are used by the simplifier. -/

variable {M E α : Type}

/-- The six channels as one function. -/
def chan3 (q01 q02 q10 q12 q20 q21 : List M) : PartyID → PartyID → List M
  | ID0, ID1 => q01
  | ID0, ID2 => q02
  | ID1, ID0 => q10
  | ID1, ID2 => q12
  | ID2, ID0 => q20
  | ID2, ID1 => q21
  | _, _ => []

/-- From the given programs and channel contents some execution ends with all parties `Ok` and
results satisfying `Q`. -/
def W3 (Q : α → α → α → Prop) (p0 p1 p2 : Prog PartyID M E α) (q01 q02 q10 q12 q20 q21 : List M) :
    Prop :=
  ∃ (v : PartyID → α) (l lg : PartyID → List (PartyID × M)), (∃ n, Config.Steps n ⟨three p0 p1 p2, chan3 q01 q02 q10 q12 q20 q21, lg⟩
    (Config.final (fun i => .ok (v i)) l)) ∧ Q (v ID0) (v ID1) (v ID2)

/-- Runs do not look at the log. -/
theorem steps_anyLog {n} {c d : Config PartyID M E α} (h : Config.Steps n c d) :
    ∀ lg', ∃ lg'', Config.Steps n { c with log := lg' } { d with log := lg'' } := by
  induction h with
  | refl c => intro lg'; exact ⟨lg', .refl _⟩
  | head hs _ ih =>
    intro lg'
    obtain ⟨i, hi⟩ := hs
    rcases Config.step?_cases hi with ⟨t, m, k, hp, rfl⟩ | ⟨s, k, m, q, hp, hq, rfl⟩
    · obtain ⟨lg'', h''⟩ := ih lg'
      exact ⟨lg'', .head ⟨i, Config.step?_send (c := { progs := _, chan := _, log := lg' }) hp⟩ h''⟩
    · obtain ⟨lg'', h''⟩ := ih (fun j => if j = i then lg' j ++ [(s, m)] else lg' j)
      exact ⟨lg'', .head ⟨i, Config.step?_recv (c := { progs := _, chan := _, log := lg' }) hp hq⟩ h''⟩

theorem wp_iff_W3 {p : PartyID → Prog PartyID M E α} {Q : (PartyID → α) → Prop}
    (h : W3 (fun a b c => Q (three a b c)) (p ID0) (p ID1) (p ID2) [] [] [] [] [] []) : wp p Q := by
  obtain ⟨v, l, lg, ⟨n, hn⟩, hQ⟩ := h
  obtain ⟨l', h'⟩ := steps_anyLog hn (fun _ => [])
  refine ⟨v, l', ⟨n, ?_⟩, ?_⟩
  · have e1 : Config.init p = { progs := three (p ID0) (p ID1) (p ID2)
                                chan := chan3 [] [] [] [] [] []
                                log := fun _ => [] } := by
      refine Config.ext' ?_ ?_ ?_
      · intro a; cases a <;> rfl
      · intro a b; cases a <;> cases b <;> rfl
      · intro a; rfl
    rw [e1]
    exact h'
  · rwa [three_eta] at hQ

theorem W3_of_step {Q : α → α → α → Prop} {p0 p1 p2 p0' p1' p2' : Prog PartyID M E α}
    {q01 q02 q10 q12 q20 q21 q01' q02' q10' q12' q20' q21' : List M}
    (hs : ∀ lg, ∃ lg', Config.Step
      (⟨three p0 p1 p2, chan3 q01 q02 q10 q12 q20 q21, lg⟩ : Config PartyID M E α)
      ⟨three p0' p1' p2', chan3 q01' q02' q10' q12' q20' q21', lg'⟩) :
    W3 Q p0 p1 p2 q01 q02 q10 q12 q20 q21 ↔ W3 Q p0' p1' p2' q01' q02' q10' q12' q20' q21' := by
  constructor
  · rintro ⟨v, l, lg, ⟨n, hn⟩, hQ⟩
    obtain ⟨lg', hs'⟩ := hs lg
    obtain ⟨m, -, hm⟩ := Config.descent_one hn (Config.final_stuck _ _) hs'
    exact ⟨v, l, lg', ⟨m, hm⟩, hQ⟩
  · rintro ⟨v, l, lg, ⟨n, hn⟩, hQ⟩
    obtain ⟨lg', hs'⟩ := hs lg
    obtain ⟨l', h'⟩ := steps_anyLog hn lg'
    exact ⟨v, l', lg, ⟨n + 1, .head hs' h'⟩, hQ⟩

local macro "w3send" i:term : tactic => `(tactic| (
  refine W3_of_step (fun lg => ⟨lg, $i, ?_⟩)
  rw [Config.step?_send (i := $i) rfl]
  refine congrArg some (Config.ext' ?_ ?_ ?_)
  · intro a; cases a <;> rfl
  · intro a b; cases a <;> cases b <;> rfl
  · intro a; rfl))

@[simp] theorem W3_send01 {Q : α → α → α → Prop} {m k p1 p2} {q01 q02 q10 q12 q20 q21 : List M} :
    W3 (E := E) Q (.send ID1 m k) p1 p2 q01 q02 q10 q12 q20 q21 ↔
    W3 Q k p1 p2 (q01 ++ [m]) q02 q10 q12 q20 q21 := by w3send ID0
@[simp] theorem W3_send02 {Q : α → α → α → Prop} {m k p1 p2} {q01 q02 q10 q12 q20 q21 : List M} :
    W3 (E := E) Q (.send ID2 m k) p1 p2 q01 q02 q10 q12 q20 q21 ↔
    W3 Q k p1 p2 q01 (q02 ++ [m]) q10 q12 q20 q21 := by w3send ID0
@[simp] theorem W3_send10 {Q : α → α → α → Prop} {m k p0 p2} {q01 q02 q10 q12 q20 q21 : List M} :
    W3 (E := E) Q p0 (.send ID0 m k) p2 q01 q02 q10 q12 q20 q21 ↔
    W3 Q p0 k p2 q01 q02 (q10 ++ [m]) q12 q20 q21 := by w3send ID1
@[simp] theorem W3_send12 {Q : α → α → α → Prop} {m k p0 p2} {q01 q02 q10 q12 q20 q21 : List M} :
    W3 (E := E) Q p0 (.send ID2 m k) p2 q01 q02 q10 q12 q20 q21 ↔
    W3 Q p0 k p2 q01 q02 q10 (q12 ++ [m]) q20 q21 := by w3send ID1
@[simp] theorem W3_send20 {Q : α → α → α → Prop} {m k p0 p1} {q01 q02 q10 q12 q20 q21 : List M} :
    W3 (E := E) Q p0 p1 (.send ID0 m k) q01 q02 q10 q12 q20 q21 ↔
    W3 Q p0 p1 k q01 q02 q10 q12 (q20 ++ [m]) q21 := by w3send ID2
@[simp] theorem W3_send21 {Q : α → α → α → Prop} {m k p0 p1} {q01 q02 q10 q12 q20 q21 : List M} :
    W3 (E := E) Q p0 p1 (.send ID1 m k) q01 q02 q10 q12 q20 q21 ↔
    W3 Q p0 p1 k q01 q02 q10 q12 q20 (q21 ++ [m]) := by w3send ID2

local macro "w3recv" i:term : tactic => `(tactic| (
  refine W3_of_step (fun lg => ⟨?_, $i, ?_⟩)
  rotate_left
  · rw [Config.step?_recv (i := $i) rfl rfl]
    refine congrArg some (Config.ext' ?_ ?_ ?_)
    rotate_right
    · intro a; rfl
    · intro a; cases a <;> rfl
    · intro a b; cases a <;> cases b <;> rfl))

@[simp] theorem W3_recv01 {Q : α → α → α → Prop} {m k p1 p2} {q01 q02 q10 q12 q20 q21 : List M} :
    W3 (E := E) Q (.recv ID1 k) p1 p2 q01 q02 (m :: q10) q12 q20 q21 ↔
    W3 Q (k m) p1 p2 q01 q02 q10 q12 q20 q21 := by w3recv ID0
@[simp] theorem W3_recv02 {Q : α → α → α → Prop} {m k p1 p2} {q01 q02 q10 q12 q20 q21 : List M} :
    W3 (E := E) Q (.recv ID2 k) p1 p2 q01 q02 q10 q12 (m :: q20) q21 ↔
    W3 Q (k m) p1 p2 q01 q02 q10 q12 q20 q21 := by w3recv ID0
@[simp] theorem W3_recv10 {Q : α → α → α → Prop} {m k p0 p2} {q01 q02 q10 q12 q20 q21 : List M} :
    W3 (E := E) Q p0 (.recv ID0 k) p2 (m :: q01) q02 q10 q12 q20 q21 ↔
    W3 Q p0 (k m) p2 q01 q02 q10 q12 q20 q21 := by w3recv ID1
@[simp] theorem W3_recv12 {Q : α → α → α → Prop} {m k p0 p2} {q01 q02 q10 q12 q20 q21 : List M} :
    W3 (E := E) Q p0 (.recv ID2 k) p2 q01 q02 q10 q12 q20 (m :: q21) ↔
    W3 Q p0 (k m) p2 q01 q02 q10 q12 q20 q21 := by w3recv ID1
@[simp] theorem W3_recv20 {Q : α → α → α → Prop} {m k p0 p1} {q01 q02 q10 q12 q20 q21 : List M} :
    W3 (E := E) Q p0 p1 (.recv ID0 k) q01 (m :: q02) q10 q12 q20 q21 ↔
    W3 Q p0 p1 (k m) q01 q02 q10 q12 q20 q21 := by w3recv ID2
@[simp] theorem W3_recv21 {Q : α → α → α → Prop} {m k p0 p1} {q01 q02 q10 q12 q20 q21 : List M} :
    W3 (E := E) Q p0 p1 (.recv ID1 k) q01 q02 q10 (m :: q12) q20 q21 ↔
    W3 Q p0 p1 (k m) q01 q02 q10 q12 q20 q21 := by w3recv ID2

@[simp] theorem W3_ret {Q : α → α → α → Prop} {a b c : α} :
    W3 (M := M) (E := E) Q (.ret a) (.ret b) (.ret c) [] [] [] [] [] [] ↔ Q a b c := by
  have e : ∀ lg, ({ progs := three (.ret a) (.ret b) (.ret c)
                    chan := chan3 [] [] [] [] [] []
                    log := lg } : Config PartyID M E α) =
      Config.final (fun i => .ok (three a b c i)) lg := by
    intro lg
    refine Config.ext' ?_ ?_ ?_
    · intro i; cases i <;> rfl
    · intro i j; cases i <;> cases j <;> rfl
    · intro i; rfl
  constructor
  · rintro ⟨v, l, lg, ⟨n, hn⟩, hQ⟩
    rw [e] at hn
    obtain ⟨k, hk, hk'⟩ := Config.descent (Config.Steps.refl (Config.final
      (fun i => .ok (three a b c i)) lg)) (Config.final_stuck _ _) hn
    obtain rfl : n = 0 := by omega
    have h2 : Config.final (M := M) (E := E) (fun i => .ok (three a b c i)) lg =
        Config.final (fun i => .ok (v i)) l := by
      generalize Config.final (M := M) (E := E) (fun i => .ok (three a b c i)) lg = x at hn
      generalize Config.final (M := M) (E := E) (fun i => .ok (v i)) l = y at hn
      cases hn; rfl
    have h3 := (Final.inj h2).1
    have h4 : ∀ i, three a b c i = v i := fun i => by simpa using congrFun h3 i
    simpa [← h4] using hQ
  · intro h
    refine ⟨three a b c, fun _ => [], fun _ => [], ⟨0, ?_⟩, h⟩
    rw [e]
    exact .refl _

end Symbolic

end Verif
