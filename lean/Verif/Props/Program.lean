import Verif.Rep3.Privacy
import Verif.Props.Demo

/-!
# Properties of whole programs: C05, C20, C21
-/

namespace Verif.Props

open PartyID Rep3 Demo

section Correct

variable {R M F : Type} [CommRing F] [DecidableEq F] [Sample R F] [Codec M (List F)] {t : A2BType}
  {st : PartyID → Rep3State R}

/-- C20: any program of library calls, run by three parties on shares of the inputs `vals`, for every
schedule: if the plain program is defined (registers exist, selections and exclusive ors are applied
to bits), all parties return `Ok`, every party has seen exactly the values the plain program reveals,
and the registers hold shares of exactly the plain registers. -/
theorem C20_program (p : Program F) {regs : PartyID → List (Share F)} {vals revealed final : List F}
    (h : IsShares regs vals) (hp : p.plain vals = some (revealed, final)) (hst : Corr t st) :
    Ensures (M := M) (fun i => p.run (regs i)) st (fun r st' =>
      (∀ i, (r i).1 = revealed) ∧ IsShares (fun i => (r i).2) final ∧ Corr t st') :=
  (spec_program h hp hst).ensures

/-- C05: in every register, at every party, after any program, the second half of the share is the
first half held by the previous party; any two parties together hold all three parts, and their sum is
the plain value. -/
theorem C05_replicated (p : Program F) {regs : PartyID → List (Share F)}
    {vals revealed final : List F} (h : IsShares regs vals)
    (hp : p.plain vals = some (revealed, final)) (hst : Corr t st) :
    Ensures (M := M) (fun i => p.run (regs i)) st (fun r _ =>
      (∀ i, (r i).2.length = final.length) ∧
      ∀ (i : PartyID) (k : Nat) (x y : Share F), (r i).2[k]? = some x → (r i.prev).2[k]? = some y →
        x.b = y.a ∧ final[k]? = some (x.a + x.b + y.b)) := by
  refine ((spec_program h hp hst).mono ?_).ensures
  rintro r st' ⟨-, ⟨l, hl, hf⟩, -⟩
  have hl' : ∀ i, (r i).2 = l.map (· i) := fun i => congrFun hl i
  refine ⟨fun i => by simp [hl', hf.length_eq], ?_⟩
  intro i k x y hx hy
  rw [hl', List.getElem?_map] at hx hy
  cases hk : l[k]? with
  | none => simp [hk] at hx
  | some s =>
    simp only [hk, Option.map_some, Option.some.injEq] at hx hy
    subst hx hy
    have hk' : k < l.length := (List.getElem?_eq_some_iff.mp hk).1
    have hkf : k < final.length := by rw [← hf.length_eq]; exact hk'
    have hs : IsShare s (final[k]) := by
      have := hf.get hk' hkf
      simp only [List.get_eq_getElem] at this
      rwa [(List.getElem?_eq_some_iff.mp hk).2] at this
    refine ⟨hs.1 i, ?_⟩
    rw [List.getElem?_eq_getElem hkf, ← hs.2]
    congr 1
    have e0 := hs.b0
    have e1 := hs.b1
    have e2 := hs.b2
    cases i <;> simp only [ID0_prev, ID1_prev, ID2_prev, e0, e1, e2] <;> ring

/-- `x*y + 1`, revealed; if it is 2, square it, else select between `x` and `y` by a bit. -/
def demoProgram : Program F7 :=
  .instr (.mul 0 1) <| .instr (.addPublic 3 1) <| .reveal 4 fun v =>
    if v = 2 then .instr (.pow 4 2) .done else .instr (.cmux 2 0 1) .done

theorem demoInputs : IsShares (fun i => [three7 i, five7 i, one7 i]) [3, 5, 1] :=
  ⟨[three7, five7, one7], rfl,
    .cons isShare_three7 (.cons isShare_five7 (.cons isShare_one7 .nil))⟩

example : Ensures (M := Msg) (fun i => demoProgram.run [three7 i, five7 i, one7 i]) states
    (fun r st' => (∀ i, (r i).1 = [2]) ∧ IsShares (fun i => (r i).2) [3, 5, 1, 1, 2, 4] ∧
      Corr .direct st') :=
  C20_program demoProgram demoInputs (by decide) corr_states

end Correct

section Private

attribute [local instance] tapeSample

variable {M F : Type} [CommRing F] [Inhabited F] [DecidableEq F] [Codec M (List F)]

/-- Every execution of the program, with tape `T` in the place of the one that party `i` does not
know, makes party `i` receive exactly the messages `L`. -/
def Receives (i : PartyID) (p : Program F) (regs : PartyID → List (Share F)) (tp : PartyID → List F)
    (T : List F) (L : List (PartyID × M)) : Prop :=
  AllRuns (fun j => p.run (regs j) j (tapeStates (fun j => if j = i.next then T else tp j) j))
    (fun _ l => l i = L)

/-- C21, simulation: party `i` knows its own shares and its own two tapes; the third tape is random.
For every possible sequence `L` of received messages, the number of third tapes with which party `i`
receives `L` equals the number of random lists with which the simulator, which is given only party
`i`'s shares and tapes and the values revealed to everybody, outputs `L`. -/
theorem C21_simulation (i : PartyID) {p : Program F} (hb : p.Basic)
    {regs : PartyID → List (Share F)} {vals revealed final : List F} (h : IsShares regs vals)
    (hp : p.plain vals = some (revealed, final)) (tp : PartyID → List F) (L : List (PartyID × M)) :
    countTapes (p.mulCount revealed) (fun T => Receives i p regs tp T L) =
      countTapes (p.mulCount revealed) (fun ms =>
        (simulate i p (regs i) (tp i) (tp i.prev) revealed ms).map
          (fun x => (i.prev, Codec.enc [x])) = L) := by
  have key : ∀ T, Receives i p regs tp T L ↔
      (simulate i p (regs i) (tp i) (tp i.prev) revealed (toMsgs i p regs tp T)).map
          (fun x => (i.prev, Codec.enc [x])) = L := by
    intro T
    obtain ⟨r, hr⟩ := runs_program (M := M) hb h hp (setT i tp T)
    have : Receives i p regs tp T L ↔
        (viewOf i p regs (setT i tp T)).map (fun x => (i.prev, Codec.enc [x])) = L := by
      unfold Receives
      rw [allRuns_iff]
      constructor
      · rintro ⟨r', l', h1, h2⟩
        obtain ⟨-, h3⟩ := Runs.unique hr h1
        rw [← h2, ← h3]
      · intro h2
        exact ⟨_, _, hr, h2⟩
    rw [this, viewOf_eq_simulate hb h hp]
  unfold countTapes
  refine Nat.card_congr ⟨fun T => ⟨toMsgs i p regs tp T.1, toMsgs_length hb h hp, (key _).mp T.2.2⟩,
    fun ms => ⟨toTape i p regs tp ms.1, toTape_length hb h hp, (key _).mpr ?_⟩, ?_, ?_⟩
  · rw [toMsgs_toTape hb h hp ms.2.1]
    exact ms.2.2
  · intro T
    exact Subtype.ext (toTape_toMsgs hb h hp T.2.1)
  · intro ms
    exact Subtype.ext (toMsgs_toTape hb h hp ms.2.1)

/-- C21: two sets of inputs that give party `i` the same shares, and for which the program reveals the
same values, are indistinguishable for party `i`: every sequence of messages arises from equally many
random tapes. -/
theorem C21_indistinguishable (i : PartyID) {p : Program F} (hb : p.Basic)
    {regs regs' : PartyID → List (Share F)} {vals vals' revealed final final' : List F}
    (h : IsShares regs vals) (h' : IsShares regs' vals') (hi : regs i = regs' i)
    (hp : p.plain vals = some (revealed, final)) (hp' : p.plain vals' = some (revealed, final'))
    (tp : PartyID → List F) (L : List (PartyID × M)) :
    countTapes (p.mulCount revealed) (fun T => Receives i p regs tp T L) =
      countTapes (p.mulCount revealed) (fun T => Receives i p regs' tp T L) := by
  rw [C21_simulation i hb h hp, C21_simulation i hb h' hp', hi]

/-- Programs without reveals need no condition on the values. -/
example (i : PartyID) (regs regs' : PartyID → List (Share F7)) (vals vals' : List F7)
    (h : IsShares regs vals) (h' : IsShares regs' vals') (hi : regs i = regs' i)
    (hl : 2 ≤ vals.length) (hl' : 2 ≤ vals'.length) (tp : PartyID → List F7)
    (L : List (PartyID × Msg)) :
    countTapes 2 (fun T => Receives i (.instr (.mul 0 1) (.instr (.mul 0 0) .done)) regs tp T L) =
      countTapes 2
        (fun T => Receives i (.instr (.mul 0 1) (.instr (.mul 0 0) .done)) regs' tp T L) := by
  obtain ⟨x, y, vs, rfl⟩ : ∃ x y vs, vals = x :: y :: vs := by
    match vals, hl with
    | x :: y :: vs, _ => exact ⟨x, y, vs, rfl⟩
  obtain ⟨x', y', vs', rfl⟩ : ∃ x y vs, vals' = x :: y :: vs := by
    match vals', hl' with
    | x :: y :: vs, _ => exact ⟨x, y, vs, rfl⟩
  exact C21_indistinguishable i (p := .instr (.mul 0 1) (.instr (.mul 0 0) .done))
    ⟨trivial, trivial, trivial⟩ h h' hi (revealed := []) rfl rfl tp L

end Private

end Verif.Props
