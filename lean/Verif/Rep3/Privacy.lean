import Verif.Rep3.Program
import Verif.Spec.Simulator

/-!
# Messages received in real executions and the simulator
-/

namespace Verif

open PartyID

attribute [local instance] tapeSample

namespace Rep3

variable {M F : Type} [CommRing F] [Inhabited F] [Codec M (List F)]

/-- A register at all parties. -/
def regsAt (regs : PartyID → List (Share F)) (k : Nat) (j : PartyID) : Share F :=
  (regs j).getD k ⟨0, 0⟩

/-- What party `j` sends in a multiplication. -/
def gateMul (tp : PartyID → List F) (x y : PartyID → Share F) (j : PartyID) : F :=
  (x j).localMul (y j) + ((tp j).headI - (tp j.prev).headI)

/-- Elements received by party `i` in a real execution. -/
def viewOf (i : PartyID) :
    Program F → (PartyID → List (Share F)) → (PartyID → List F) → List F
  | .done, _, _ => []
  | .instr x k, regs, tp =>
    match x.mulOperands with
    | some (a, b) =>
      let z := gateMul tp (regsAt regs a) (regsAt regs b)
      z i.prev :: viewOf i k (fun j => regs j ++ [⟨z j, z j.prev⟩]) (fun j => (tp j).tail)
    | none => viewOf i k (fun j => regs j ++ [x.localResult j (regs j)]) tp
  | .reveal r k, regs, tp =>
    (regsAt regs r i.prev).b ::
      viewOf i (k ((regsAt regs r ID0).a + (regsAt regs r ID1).a + (regsAt regs r ID2).a)) regs tp

/-- Replace the tape party `i` does not know. -/
def setT (i : PartyID) (tp : PartyID → List F) (t : List F) : PartyID → List F :=
  fun j => if j = i.next then t else tp j

/-- The messages of the multiplications. -/
def toMsgs (i : PartyID) :
    Program F → (PartyID → List (Share F)) → (PartyID → List F) → List F → List F
  | .done, _, _, _ => []
  | .instr x k, regs, tp, T =>
    match x.mulOperands with
    | some (a, b) =>
      let z := gateMul (setT i tp T) (regsAt regs a) (regsAt regs b)
      z i.prev :: toMsgs i k (fun j => regs j ++ [⟨z j, z j.prev⟩]) (fun j => (tp j).tail) T.tail
    | none => toMsgs i k (fun j => regs j ++ [x.localResult j (regs j)]) tp T
  | .reveal r k, regs, tp, T =>
      toMsgs i (k ((regsAt regs r ID0).a + (regsAt regs r ID1).a + (regsAt regs r ID2).a)) regs tp T

/-- The unknown tape that makes the multiplications produce the given messages. -/
def toTape (i : PartyID) :
    Program F → (PartyID → List (Share F)) → (PartyID → List F) → List F → List F
  | .done, _, _, _ => []
  | .instr x k, regs, tp, ms =>
    match x.mulOperands with
    | some (a, b) =>
      let t := (regsAt regs a i.prev).localMul (regsAt regs b i.prev) + (tp i.prev).headI - ms.headI
      let z := gateMul (setT i tp [t]) (regsAt regs a) (regsAt regs b)
      t :: toTape i k (fun j => regs j ++ [⟨z j, z j.prev⟩]) (fun j => (tp j).tail) ms.tail
    | none => toTape i k (fun j => regs j ++ [x.localResult j (regs j)]) tp ms
  | .reveal r k, regs, tp, ms =>
      toTape i (k ((regsAt regs r ID0).a + (regsAt regs r ID1).a + (regsAt regs r ID2).a)) regs tp ms

omit [Codec M (List F)] in
theorem localMul_gate_congr {i : PartyID} {tp : PartyID → List F} {T T' : List F} {x y : PartyID → Share F}
    (h : T.headI = T'.headI) : gateMul (setT i tp T) x y = gateMul (setT i tp T') x y := by
  funext j
  simp only [gateMul, setT]
  cases i <;> cases j <;> simp [h]

/-! The recursions agree with a run whose revealed values are `out`. -/

variable [DecidableEq F]

omit [Codec M (List F)] [Inhabited F] in
/-- lookup in shares of known values -/
theorem regsAt_isShare {regs : PartyID → List (Share F)} {vals : List F} (h : IsShares regs vals)
    {k : Nat} {v : F} (hv : vals[k]? = some v) : IsShare (regsAt regs k) v := by
  obtain ⟨l, rfl, hl⟩ := h
  have hk : k < vals.length := by
    by_contra hc
    rw [List.getElem?_eq_none (by omega)] at hv
    cases hv
  have hkl : k < l.length := by rwa [hl.length_eq]
  have hs := hl.get hkl hk
  rw [List.getElem?_eq_getElem hk] at hv
  cases hv
  have e : regsAt (fun i => l.map (· i)) k = l[k] := by
    funext j
    simp [regsAt, List.getD, List.getElem?_eq_getElem hkl]
  rw [e]
  simpa using hs

omit [Codec M (List F)] in
theorem instr_cases {x : Instr F} {regs : PartyID → List (Share F)} {vals o : List F} (hb : x.Basic)
    (hx : x.plain vals = some o) (h : IsShares regs vals) :
    (∃ a b va vb, x = .mul a b ∧ vals[a]? = some va ∧ vals[b]? = some vb ∧
      ∀ tp : PartyID → List F, IsShares
        (fun j => regs j ++ [⟨gateMul tp (regsAt regs a) (regsAt regs b) j,
          gateMul tp (regsAt regs a) (regsAt regs b) j.prev⟩]) (vals ++ o)) ∨
    (x.mulOperands = none ∧
      IsShares (fun j => regs j ++ [x.localResult j (regs j)]) (vals ++ o)) := by
  cases x with
  | const c =>
    cases hx
    exact Or.inr ⟨rfl, isShares_append h (isShares_single (IsShare.promote c))⟩
  | add a b =>
    simp only [Instr.plain, Option.bind_eq_bind, Option.pure_def] at hx
    obtain ⟨va, h1, hx⟩ := Option.bind_eq_some_iff.mp hx
    obtain ⟨vb, h2, hx⟩ := Option.bind_eq_some_iff.mp hx
    cases hx
    exact Or.inr ⟨rfl, isShares_append h (isShares_single
      ((regsAt_isShare h h1).add (regsAt_isShare h h2)))⟩
  | sub a b =>
    simp only [Instr.plain, Option.bind_eq_bind, Option.pure_def] at hx
    obtain ⟨va, h1, hx⟩ := Option.bind_eq_some_iff.mp hx
    obtain ⟨vb, h2, hx⟩ := Option.bind_eq_some_iff.mp hx
    cases hx
    exact Or.inr ⟨rfl, isShares_append h (isShares_single
      ((regsAt_isShare h h1).sub (regsAt_isShare h h2)))⟩
  | neg a =>
    simp only [Instr.plain, Option.bind_eq_bind, Option.pure_def] at hx
    obtain ⟨va, h1, hx⟩ := Option.bind_eq_some_iff.mp hx
    cases hx
    exact Or.inr ⟨rfl, isShares_append h (isShares_single (regsAt_isShare h h1).neg)⟩
  | addPublic a c =>
    simp only [Instr.plain, Option.bind_eq_bind, Option.pure_def] at hx
    obtain ⟨va, h1, hx⟩ := Option.bind_eq_some_iff.mp hx
    cases hx
    exact Or.inr ⟨rfl, isShares_append h (isShares_single ((regsAt_isShare h h1).addPublic c))⟩
  | subSharedByPublic a c =>
    simp only [Instr.plain, Option.bind_eq_bind, Option.pure_def] at hx
    obtain ⟨va, h1, hx⟩ := Option.bind_eq_some_iff.mp hx
    cases hx
    refine Or.inr ⟨rfl, isShares_append h (isShares_single ?_)⟩
    rw [sub_eq_add_neg]
    exact (regsAt_isShare h h1).addPublic (-c)
  | subPublicByShared c a =>
    simp only [Instr.plain, Option.bind_eq_bind, Option.pure_def] at hx
    obtain ⟨va, h1, hx⟩ := Option.bind_eq_some_iff.mp hx
    cases hx
    refine Or.inr ⟨rfl, isShares_append h (isShares_single ?_)⟩
    rw [← neg_add_eq_sub]
    exact (regsAt_isShare h h1).neg.addPublic c
  | mulPublic a c =>
    simp only [Instr.plain, Option.bind_eq_bind, Option.pure_def] at hx
    obtain ⟨va, h1, hx⟩ := Option.bind_eq_some_iff.mp hx
    cases hx
    exact Or.inr ⟨rfl, isShares_append h (isShares_single ((regsAt_isShare h h1).scale c))⟩
  | mul a b =>
    simp only [Instr.plain, Option.bind_eq_bind, Option.pure_def] at hx
    obtain ⟨va, h1, hx⟩ := Option.bind_eq_some_iff.mp hx
    obtain ⟨vb, h2, hx⟩ := Option.bind_eq_some_iff.mp hx
    cases hx
    refine Or.inl ⟨a, b, va, vb, rfl, h1, h2, fun tp => isShares_append h (isShares_single
      (isShare_mk (x := gateMul tp (regsAt regs a) (regsAt regs b)) ?_))⟩
    have := (regsAt_isShare h h1).localMul (regsAt_isShare h h2)
    simp only [gateMul, ID0_prev, ID1_prev, ID2_prev]
    linear_combination this
  | mulVec _ _ => exact hb.elim
  | cmux _ _ _ => exact hb.elim
  | pow _ _ => exact hb.elim
  | xor _ _ => exact hb.elim

omit [Codec M (List F)] in
theorem toTape_length {i : PartyID} {p : Program F} {regs : PartyID → List (Share F)}
    {vals out fin : List F} {tp : PartyID → List F} {ms : List F} (hb : p.Basic)
    (h : IsShares regs vals) (hp : p.plain vals = some (out, fin)) :
    (toTape i p regs tp ms).length = p.mulCount out := by
  induction p generalizing regs vals tp ms out fin with
  | done => rfl
  | instr x k ih =>
    simp only [Program.plain, Option.bind_eq_bind] at hp
    obtain ⟨o, h1, hq⟩ := Option.bind_eq_some_iff.mp hp
    rcases instr_cases hb.1 h1 h with ⟨a, b, va, vb, rfl, ha, hb', hs⟩ | ⟨hn, hs⟩
    · simp only [toTape, Instr.mulOperands, List.length_cons, Program.mulCount, Option.isSome_some,
        if_true]
      rw [ih hb.2 (hs _) hq, Nat.add_comm]
    · simp only [toTape, hn, Program.mulCount]
      rw [ih hb.2 hs hq]
      simp
  | reveal r k ih =>
    simp only [Program.plain, Option.bind_eq_bind, Option.pure_def] at hp
    obtain ⟨v, h1, hp⟩ := Option.bind_eq_some_iff.mp hp
    obtain ⟨⟨o, rs⟩, h2, hp⟩ := Option.bind_eq_some_iff.mp hp
    cases hp
    simp only [toTape, Program.mulCount, (regsAt_isShare h h1).2]
    exact ih v (hb v) h h2

omit [Codec M (List F)] in
theorem toMsgs_length {i : PartyID} {p : Program F} {regs : PartyID → List (Share F)}
    {vals out fin : List F} {tp : PartyID → List F} {T : List F} (hb : p.Basic)
    (h : IsShares regs vals) (hp : p.plain vals = some (out, fin)) :
    (toMsgs i p regs tp T).length = p.mulCount out := by
  induction p generalizing regs vals tp T out fin with
  | done => rfl
  | instr x k ih =>
    simp only [Program.plain, Option.bind_eq_bind] at hp
    obtain ⟨o, h1, hq⟩ := Option.bind_eq_some_iff.mp hp
    rcases instr_cases hb.1 h1 h with ⟨a, b, va, vb, rfl, ha, hb', hs⟩ | ⟨hn, hs⟩
    · simp only [toMsgs, Instr.mulOperands, List.length_cons, Program.mulCount, Option.isSome_some,
        if_true]
      rw [ih hb.2 (hs _) hq, Nat.add_comm]
    · simp only [toMsgs, hn, Program.mulCount]
      rw [ih hb.2 hs hq]
      simp
  | reveal r k ih =>
    simp only [Program.plain, Option.bind_eq_bind, Option.pure_def] at hp
    obtain ⟨v, h1, hp⟩ := Option.bind_eq_some_iff.mp hp
    obtain ⟨⟨o, rs⟩, h2, hp⟩ := Option.bind_eq_some_iff.mp hp
    cases hp
    simp only [toMsgs, Program.mulCount, (regsAt_isShare h h1).2]
    exact ih v (hb v) h h2

omit [Codec M (List F)] [DecidableEq F] in
/-- What the previous party sends, in terms of the unknown tape. -/
theorem gateMul_prev {i : PartyID} {tp : PartyID → List F} {T : List F} {x y : PartyID → Share F} :
    gateMul (setT i tp T) x y i.prev =
      (x i.prev).localMul (y i.prev) + ((tp i.prev).headI - T.headI) := by
  cases i <;> simp [gateMul, setT]

omit [Codec M (List F)] in
theorem toMsgs_toTape {i : PartyID} {p : Program F} {regs : PartyID → List (Share F)}
    {vals out fin : List F} {tp : PartyID → List F} {ms : List F} (hb : p.Basic)
    (h : IsShares regs vals) (hp : p.plain vals = some (out, fin)) (hm : ms.length = p.mulCount out) :
    toMsgs i p regs tp (toTape i p regs tp ms) = ms := by
  induction p generalizing regs vals tp ms out fin with
  | done => simp [Program.mulCount] at hm; simp [toMsgs, hm]
  | instr x k ih =>
    simp only [Program.plain, Option.bind_eq_bind] at hp
    obtain ⟨o, h1, hq⟩ := Option.bind_eq_some_iff.mp hp
    rcases instr_cases hb.1 h1 h with ⟨a, b, va, vb, rfl, ha, hb', hs⟩ | ⟨hn, hs⟩
    · simp only [Program.mulCount, Instr.mulOperands, Option.isSome_some, if_true] at hm
      cases ms with
      | nil => simp at hm; omega
      | cons m ms =>
        simp only [toTape, toMsgs, Instr.mulOperands, List.tail_cons, List.headI_cons]
        generalize ht : (regsAt regs a i.prev).localMul (regsAt regs b i.prev) +
          (tp i.prev).headI - m = t
        have e : ∀ Q, gateMul (setT i tp (t :: Q)) (regsAt regs a) (regsAt regs b) =
          gateMul (setT i tp [t]) (regsAt regs a) (regsAt regs b) :=
          fun Q => localMul_gate_congr rfl
        rw [e (toTape i k _ _ ms), ih hb.2 (hs _) hq (by simp at hm; omega), gateMul_prev, ← ht]
        congr 1
        simp only [List.headI_cons]
        ring
    · simp only [Program.mulCount, hn] at hm
      simp only [toMsgs, toTape, hn]
      exact ih hb.2 hs hq (by simpa using hm)
  | reveal r k ih =>
    simp only [Program.plain, Option.bind_eq_bind, Option.pure_def] at hp
    obtain ⟨v, h1, hp⟩ := Option.bind_eq_some_iff.mp hp
    obtain ⟨⟨o, rs⟩, h2, hp⟩ := Option.bind_eq_some_iff.mp hp
    cases hp
    simp only [toMsgs, toTape, (regsAt_isShare h h1).2]
    exact ih v (hb v) h h2 hm

omit [Codec M (List F)] in
theorem toTape_toMsgs {i : PartyID} {p : Program F} {regs : PartyID → List (Share F)}
    {vals out fin : List F} {tp : PartyID → List F} {T : List F} (hb : p.Basic)
    (h : IsShares regs vals) (hp : p.plain vals = some (out, fin)) (hm : T.length = p.mulCount out) :
    toTape i p regs tp (toMsgs i p regs tp T) = T := by
  induction p generalizing regs vals tp T out fin with
  | done => simp [Program.mulCount] at hm; simp [toTape, hm]
  | instr x k ih =>
    simp only [Program.plain, Option.bind_eq_bind] at hp
    obtain ⟨o, h1, hq⟩ := Option.bind_eq_some_iff.mp hp
    rcases instr_cases hb.1 h1 h with ⟨a, b, va, vb, rfl, ha, hb', hs⟩ | ⟨hn, hs⟩
    · simp only [Program.mulCount, Instr.mulOperands, Option.isSome_some, if_true] at hm
      cases T with
      | nil => simp at hm; omega
      | cons t T =>
        simp only [toTape, toMsgs, Instr.mulOperands, List.tail_cons, List.headI_cons, gateMul_prev]
        have e : (regsAt regs a i.prev).localMul (regsAt regs b i.prev) + (tp i.prev).headI -
            ((regsAt regs a i.prev).localMul (regsAt regs b i.prev) + ((tp i.prev).headI - t)) = t := by
          ring
        rw [e, localMul_gate_congr (T := t :: T) (T' := [t]) rfl,
          ih hb.2 (hs _) hq (by simp at hm; omega)]
    · simp only [Program.mulCount, hn] at hm
      simp only [toMsgs, toTape, hn]
      exact ih hb.2 hs hq (by simpa using hm)
  | reveal r k ih =>
    simp only [Program.plain, Option.bind_eq_bind, Option.pure_def] at hp
    obtain ⟨v, h1, hp⟩ := Option.bind_eq_some_iff.mp hp
    obtain ⟨⟨o, rs⟩, h2, hp⟩ := Option.bind_eq_some_iff.mp hp
    cases hp
    simp only [toMsgs, toTape, (regsAt_isShare h h1).2]
    exact ih v (hb v) h h2 hm

omit [Codec M (List F)] in
/-- The received elements are those of the simulator. -/
theorem viewOf_eq_simulate {i : PartyID} {p : Program F} {regs : PartyID → List (Share F)}
    {vals out fin : List F} {tp : PartyID → List F} {T : List F} (hb : p.Basic)
    (h : IsShares regs vals) (hp : p.plain vals = some (out, fin)) :
    viewOf i p regs (setT i tp T) =
      simulate i p (regs i) (tp i) (tp i.prev) out (toMsgs i p regs tp T) := by
  induction p generalizing regs vals tp T out fin with
  | done => rfl
  | instr x k ih =>
    simp only [Program.plain, Option.bind_eq_bind] at hp
    obtain ⟨o, h1, hq⟩ := Option.bind_eq_some_iff.mp hp
    rcases instr_cases hb.1 h1 h with ⟨a, b, va, vb, rfl, ha, hb', hs⟩ | ⟨hn, hs⟩
    · simp only [viewOf, simulate, toMsgs, Instr.mulOperands, List.headI_cons, List.tail_cons]
      congr 1
      have e : (fun j => (setT i tp T j).tail) = setT i (fun j => (tp j).tail) T.tail := by
        funext j; simp only [setT]; split <;> rfl
      rw [e, ih hb.2 (hs _) hq]
      congr 3
      simp only [gateMul, regsAt]
      cases i <;> simp [setT]
    · simp only [viewOf, simulate, toMsgs, hn]
      exact ih hb.2 hs hq
  | reveal r k ih =>
    simp only [Program.plain, Option.bind_eq_bind, Option.pure_def] at hp
    obtain ⟨v, h1, hp⟩ := Option.bind_eq_some_iff.mp hp
    obtain ⟨⟨o, rs⟩, h2, hp⟩ := Option.bind_eq_some_iff.mp hp
    cases hp
    have hr := regsAt_isShare h h1
    simp only [viewOf, simulate, toMsgs, hr.2, List.headI_cons, List.tail_cons]
    congr 1
    · have h3 := hr.2
      have e0 := hr.b0
      have e1 := hr.b1
      have e2 := hr.b2
      have : ∀ j, (regs j).getD r ⟨0, 0⟩ = regsAt regs r j := fun _ => rfl
      rw [this, ← h3]
      cases i <;> simp only [ID0_prev, ID1_prev, ID2_prev, e0, e1, e2] <;> ring
    · exact ih v (hb v) h h2

/-! ### The real execution produces these elements -/

omit [CommRing F] [Inhabited F] [DecidableEq F] in
theorem runs_reshare {R : Type} {x : PartyID → F} {s : PartyID → Rep3State R} :
    Runs (M := M) (fun j => reshare (x j) j (s j)) (fun j => .ok (x j.prev, s j))
      (fun j => [(j.prev, Codec.enc [x j.prev])]) := by
  obtain ⟨n, hn⟩ := steps_round (E := Err) (M := M) (ι := PartyID)
    (outs := fun j => [(j.next, Codec.enc [x j])])
    (ins := fun j => [j.prev]) (msg := fun j _ => Codec.enc [x j])
    (α := F × Rep3State R)
    (k := fun j ms => match ms with
      | [m] => ((match (Codec.dec m : Option (List F)) with
          | some l => .ret (l, s j)
          | none => .fail (.err "deserialization failed") :
            Prog PartyID M Err (List F × Rep3State R))).bind
              fun r => (exactlyOne r.1 : Rep3M R M F) j r.2
      | _ => .fail (.err ""))
    (by intro i j; cases i <;> cases j <;> simp [msgsTo]) (by simp)
  refine ⟨n, ?_⟩
  convert hn using 1
  · congr 1
    funext j
    simp [reshare, reshareMany, sendAndRecvMany, sendMany, recvMany, MPC.recv_apply, sendsThen,
      recvsThen]
    funext m
    cases (Codec.dec m : Option (List F)) <;> rfl
  · refine Config.ext' (fun j => ?_) (fun _ _ => rfl) (fun j => rfl)
    simp [Config.final, Prog.ofExcept, exactlyOne]

theorem sample_tape (l : List F) : Sample.sample l = (l.headI, l.tail) := by
  cases l <;> rfl

theorem runs_mul {x y : PartyID → Share F} {tp : PartyID → List F} :
    Runs (M := M) (fun j => mul (x j) (y j) j (tapeStates tp j))
      (fun j => .ok (⟨gateMul tp x y j, gateMul tp x y j.prev⟩, tapeStates (fun j => (tp j).tail) j))
      (fun j => [(j.prev, Codec.enc [gateMul tp x y j.prev])]) := by
  have h := Runs.bind_ok (runs_reshare (M := M) (x := gateMul tp x y)
    (s := tapeStates (fun j => (tp j).tail)))
    (k := fun j r => .ret ((⟨gateMul tp x y j, r.1⟩ : Share F), r.2))
    (runs_ret (M := M) (E := Err)
      (fun j => ((⟨gateMul tp x y j, gateMul tp x y j.prev⟩ : Share F),
        tapeStates (fun j => (tp j).tail) j)))
  convert h using 1
  · funext j
    simp [mul, maskElem, withRand, Rep3Rand.masking, Rep3Rand.randomPair, tapeStates, sample_tape,
      gateMul]
  · funext j; rfl

theorem runs_open {x : PartyID → Share F} {v : F} (hx : IsShare x v) {tp : PartyID → List F} :
    Runs (M := M) (fun j => openShare (x j) j (tapeStates tp j))
      (fun j => .ok (v, tapeStates tp j))
      (fun j => [(j.prev, Codec.enc [(x j.prev).b])]) := by
  have h := Runs.bind_ok (runs_reshare (M := M) (x := fun j => (x j).b)
    (s := tapeStates tp))
    (k := fun j r => .ret ((x j).a + (x j).b + r.1, r.2))
    (runs_ret (M := M) (E := Err)
      (fun j => ((x j).a + (x j).b + (x j.prev).b, tapeStates tp j)))
  convert h using 1
  · funext j
    simp [openShare]
  · funext j
    have := hx.2
    have e0 := hx.b0
    have e1 := hx.b1
    have e2 := hx.b2
    congr 2
    cases j <;> simp only [ID0_prev, ID1_prev, ID2_prev, e0, e1, e2, ← this] <;> ring
  · funext j; rfl

omit [Inhabited F] [Codec M (List F)] [DecidableEq F] in
theorem reg_apply {R : Type} {regs : PartyID → List (Share F)} {vals : List F} (h : IsShares regs vals)
    {k : Nat} {v : F} (hv : vals[k]? = some v) (j : PartyID) (s : Rep3State R) :
    (reg (regs j) k : Rep3M R M (Share F)) j s = .ret (regsAt regs k j, s) := by
  obtain ⟨l, rfl, hl⟩ := h
  have hk : k < vals.length := by
    by_contra hc
    rw [List.getElem?_eq_none (by omega)] at hv
    cases hv
  have hkl : k < l.length := by rwa [hl.length_eq]
  simp [reg, regsAt, List.getElem?_eq_getElem hkl]

theorem run_linear {x : Instr F} {regs : PartyID → List (Share F)} {vals o : List F} (hb : x.Basic)
    (hx : x.plain vals = some o) (h : IsShares regs vals) (hn : x.mulOperands = none) (j : PartyID)
    (tp : PartyID → List F) :
    (x.run (regs j) : Rep3M (List F) M _) j (tapeStates tp j) =
      .ret ([x.localResult j (regs j)], tapeStates tp j) := by
  have hid : (tapeStates tp j).id = j := rfl
  cases x with
  | const c => simp [Instr.run, stateId, hid, Instr.localResult]
  | add a b =>
    simp only [Instr.plain, Option.bind_eq_bind, Option.pure_def] at hx
    obtain ⟨va, h1, hx⟩ := Option.bind_eq_some_iff.mp hx
    obtain ⟨vb, h2, hx⟩ := Option.bind_eq_some_iff.mp hx
    simp [Instr.run, reg_apply h h1, reg_apply h h2, Instr.localResult, regsAt, add]
  | sub a b =>
    simp only [Instr.plain, Option.bind_eq_bind, Option.pure_def] at hx
    obtain ⟨va, h1, hx⟩ := Option.bind_eq_some_iff.mp hx
    obtain ⟨vb, h2, hx⟩ := Option.bind_eq_some_iff.mp hx
    simp [Instr.run, reg_apply h h1, reg_apply h h2, Instr.localResult, regsAt, sub]
  | neg a =>
    simp only [Instr.plain, Option.bind_eq_bind, Option.pure_def] at hx
    obtain ⟨va, h1, hx⟩ := Option.bind_eq_some_iff.mp hx
    simp [Instr.run, reg_apply h h1, Instr.localResult, regsAt, neg]
  | addPublic a c =>
    simp only [Instr.plain, Option.bind_eq_bind, Option.pure_def] at hx
    obtain ⟨va, h1, hx⟩ := Option.bind_eq_some_iff.mp hx
    simp [Instr.run, reg_apply h h1, Instr.localResult, regsAt, stateId, hid]
  | subSharedByPublic a c =>
    simp only [Instr.plain, Option.bind_eq_bind, Option.pure_def] at hx
    obtain ⟨va, h1, hx⟩ := Option.bind_eq_some_iff.mp hx
    simp [Instr.run, reg_apply h h1, Instr.localResult, regsAt, stateId, hid]
  | subPublicByShared c a =>
    simp only [Instr.plain, Option.bind_eq_bind, Option.pure_def] at hx
    obtain ⟨va, h1, hx⟩ := Option.bind_eq_some_iff.mp hx
    simp [Instr.run, reg_apply h h1, Instr.localResult, regsAt, stateId, hid]
  | mulPublic a c =>
    simp only [Instr.plain, Option.bind_eq_bind, Option.pure_def] at hx
    obtain ⟨va, h1, hx⟩ := Option.bind_eq_some_iff.mp hx
    simp [Instr.run, reg_apply h h1, Instr.localResult, regsAt, mulPublic]
  | mul a b => cases hn
  | mulVec _ _ => exact hb.elim
  | cmux _ _ _ => exact hb.elim
  | pow _ _ => exact hb.elim
  | xor _ _ => exact hb.elim

/-- A real execution exists in which every party `i` receives exactly `viewOf i`, from the previous
party. -/
theorem runs_program {p : Program F} {regs : PartyID → List (Share F)} {vals out fin : List F}
    (hb : p.Basic) (h : IsShares regs vals) (hp : p.plain vals = some (out, fin))
    (tp : PartyID → List F) :
    ∃ r : PartyID → (List F × List (Share F)) × Rep3State (List F),
      Runs (M := M) (fun j => p.run (regs j) j (tapeStates tp j)) (fun j => .ok (r j))
      (fun j => (viewOf j p regs tp).map fun x => (j.prev, Codec.enc [x])) := by
  induction p generalizing regs vals tp out fin with
  | done => exact ⟨_, runs_ret _⟩
  | instr x k ih =>
    simp only [Program.plain, Option.bind_eq_bind] at hp
    obtain ⟨o, h1, hq⟩ := Option.bind_eq_some_iff.mp hp
    rcases instr_cases hb.1 h1 h with ⟨a, b, va, vb, rfl, ha, hb', hs⟩ | ⟨hn, hs⟩
    · obtain ⟨r, hr⟩ := ih hb.2 (hs tp) hq (fun j => (tp j).tail)
      refine ⟨r, ?_⟩
      have := Runs.bind_ok (runs_mul (M := M) (x := regsAt regs a) (y := regsAt regs b) (tp := tp))
        (k := fun j z => k.run (regs j ++ [z.1]) j z.2) hr
      convert this using 1
      · funext j
        simp [Program.run, Instr.run, reg_apply h ha, reg_apply h hb', Prog.bind_assoc]
      · funext j
        simp [viewOf, Instr.mulOperands]
    · obtain ⟨r, hr⟩ := ih hb.2 hs hq tp
      refine ⟨r, ?_⟩
      convert hr using 1
      · funext j
        simp [Program.run, run_linear hb.1 h1 h hn]
      · funext j
        simp [viewOf, hn]
  | reveal r k ih =>
    simp only [Program.plain, Option.bind_eq_bind, Option.pure_def] at hp
    obtain ⟨v, h1, hp⟩ := Option.bind_eq_some_iff.mp hp
    obtain ⟨⟨o, rs⟩, h2, hp⟩ := Option.bind_eq_some_iff.mp hp
    cases hp
    have hr := regsAt_isShare h h1
    obtain ⟨res, hres⟩ := ih v (hb v) h h2 tp
    refine ⟨fun j => ((v :: (res j).1.1, (res j).1.2), (res j).2), ?_⟩
    have h3 := Runs.bind_ok hres
      (k := fun j (z : (List F × List (Share F)) × Rep3State (List F)) =>
        .ret ((v :: z.1.1, z.1.2), z.2)) (runs_ret (M := M) (E := Err) _)
    have h4 := Runs.bind_ok (runs_open (M := M) hr (tp := tp))
      (k := fun j z => ((k z.1).run (regs j) j z.2).bind
        fun y => .ret ((z.1 :: y.1.1, y.1.2), y.2)) h3
    convert h4 using 1
    · funext j
      simp [Program.run, reg_apply h h1]
    · funext j
      simp [viewOf, hr.2]

end Rep3

end Verif
