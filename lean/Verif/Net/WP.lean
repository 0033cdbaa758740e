import Verif.Net.Exec
import Mathlib.Data.Fintype.Basic

/-!
# What every run delivers, and a calculus for proving it

`AllRuns p Q` is the statement used in properties: *every* execution of the parties' programs is
finite and ends with every party returned and results and views satisfying `Q`.
`wp` is the proof device: one execution with the wanted end exists.  By independence of the schedule
(`Verif.Net.Exec`) the two agree (`allRuns_iff`).
-/

namespace Verif

open Config

section Basic

variable {ι M E α β : Type} [DecidableEq ι]

set_option linter.unusedSectionVars false

/-- Every execution (every interleaving of the parties' actions) is finite, and each execution that
cannot be continued has all parties returned, no message left in flight, and results `r` and views
`l` satisfying `Q r l`. -/
def AllRuns (p : ι → Prog ι M E α)
    (Q : (ι → Except E α) → (ι → List (ι × M)) → Prop) : Prop :=
  (∃ N, ∀ n d, Steps n (Config.init p) d → n ≤ N) ∧
  (∀ n d, Steps n (Config.init p) d → Stuck d → ∃ r l, d = Config.final r l ∧ Q r l)

/-- Every execution is finite and ends with every party returning `Ok`, the returned values
satisfying `Q`. -/
def Delivers (p : ι → Prog ι M E α) (Q : (ι → α) → Prop) : Prop :=
  AllRuns p (fun r _ => ∃ v : ι → α, (∀ i, r i = .ok (v i)) ∧ Q v)

/-- Some execution ends with the given results and views. -/
def Runs (p : ι → Prog ι M E α) (r : ι → Except E α) (l : ι → List (ι × M)) : Prop :=
  ∃ n, Steps n (Config.init p) (Config.final r l)

/-- Some execution ends with results satisfying `Q`. -/
def wpE (p : ι → Prog ι M E α) (Q : (ι → Except E α) → Prop) : Prop :=
  ∃ r l, Runs p r l ∧ Q r

/-- Some execution ends with all parties `Ok` and results satisfying `Q`. -/
def wp (p : ι → Prog ι M E α) (Q : (ι → α) → Prop) : Prop :=
  ∃ v l, Runs p (fun i => .ok (v i)) l ∧ Q v

theorem Runs.allRuns {p : ι → Prog ι M E α} {r : ι → Except E α} {l : ι → List (ι × M)}
    {Q : (ι → Except E α) → (ι → List (ι × M)) → Prop}
    (h : Runs p r l) (hQ : Q r l) : AllRuns p Q := by
  obtain ⟨N, hN⟩ := h
  refine ⟨⟨N, ?_⟩, ?_⟩
  · intro n d hd
    obtain ⟨k, hk, -⟩ := descent hN (final_stuck r l) hd
    omega
  · intro n d hd hs
    obtain ⟨k, hk, hk'⟩ := descent hN (final_stuck r l) hd
    cases hk' with
    | refl => exact ⟨r, l, rfl, hQ⟩
    | head hs' _ =>
      obtain ⟨i, hi⟩ := hs'
      rw [hs i] at hi
      cases hi

/-- From a bounded system one can always run to a stuck state. -/
theorem exists_stuck {c : Config ι M E α} {N : Nat}
    (h : ∀ n d, Steps n c d → n ≤ N) : ∃ n d, Steps n c d ∧ Stuck d := by
  induction N generalizing c with
  | zero =>
    refine ⟨0, c, .refl c, fun i => ?_⟩
    cases hi : step? i c with
    | none => rfl
    | some d => exact absurd (h 1 d (.single ⟨i, hi⟩)) (by omega)
  | succ N ih =>
    by_cases hs : Stuck c
    · exact ⟨0, c, .refl c, hs⟩
    · simp only [Stuck, Classical.not_forall] at hs
      obtain ⟨i, hi⟩ := hs
      cases hd : step? i c with
      | none => exact absurd hd hi
      | some d =>
        have hcd : Step c d := ⟨i, hd⟩
        obtain ⟨n, e, he, hst⟩ := ih (c := d) (fun n e he => by
          have := h (n + 1) e (.head hcd he); omega)
        exact ⟨n + 1, e, .head hcd he, hst⟩

theorem allRuns_iff {p : ι → Prog ι M E α}
    {Q : (ι → Except E α) → (ι → List (ι × M)) → Prop} :
    AllRuns p Q ↔ ∃ r l, Runs p r l ∧ Q r l := by
  constructor
  · rintro ⟨⟨N, hN⟩, h⟩
    obtain ⟨n, d, hd, hst⟩ := exists_stuck hN
    obtain ⟨r, l, rfl, hQ⟩ := h n d hd hst
    exact ⟨r, l, ⟨n, hd⟩, hQ⟩
  · rintro ⟨r, l, h, hQ⟩
    exact h.allRuns hQ

theorem delivers_iff {p : ι → Prog ι M E α} {Q : (ι → α) → Prop} :
    Delivers p Q ↔ wp p Q := by
  unfold Delivers wp
  rw [allRuns_iff]
  constructor
  · rintro ⟨r, l, h, v, hv, hQ⟩
    obtain rfl : r = fun i => .ok (v i) := funext hv
    exact ⟨v, l, h, hQ⟩
  · rintro ⟨v, l, h, hQ⟩
    exact ⟨_, l, h, v, fun _ => rfl, hQ⟩

theorem wp.delivers {p : ι → Prog ι M E α} {Q : (ι → α) → Prop} (h : wp p Q) : Delivers p Q :=
  delivers_iff.mpr h

theorem Delivers.mono {p : ι → Prog ι M E α} {Q Q' : (ι → α) → Prop} (h : Delivers p Q)
    (hq : ∀ v, Q v → Q' v) : Delivers p Q' := by
  rw [delivers_iff] at *
  obtain ⟨v, l, h, hQ⟩ := h
  exact ⟨v, l, h, hq v hQ⟩

theorem Final.inj {r r' : ι → Except E α} {l l' : ι → List (ι × M)}
    (h : Config.final (M := M) r l = Config.final r' l') : r = r' ∧ l = l' := by
  have h1 := congrArg Config.progs h
  have h2 := congrArg Config.log h
  refine ⟨funext fun i => ?_, h2⟩
  have := congrFun h1 i
  simp only [Config.final] at this
  cases hr : r i <;> cases hr' : r' i <;> simp_all [Prog.ofExcept]

/-- Results and views of a run are unique. -/
theorem Runs.unique {p : ι → Prog ι M E α} {r r' : ι → Except E α} {l l' : ι → List (ι × M)}
    (h : Runs p r l) (h' : Runs p r' l') : r = r' ∧ l = l' := by
  obtain ⟨n, hn⟩ := h
  obtain ⟨m, hm⟩ := h'
  obtain ⟨k, hk, hk'⟩ := descent hn (final_stuck r l) hm
  have : Config.final (M := M) r l = Config.final r' l' := by
    generalize Config.final (M := M) r l = c at hk' ⊢
    generalize hd : Config.final (M := M) r' l' = d at hk' ⊢
    cases hk' with
    | refl => rfl
    | head hs' _ =>
      obtain ⟨i, hi⟩ := hs'
      rw [← hd, final_stuck r' l' i] at hi
      cases hi
  exact Final.inj this

theorem wp.wpE {p : ι → Prog ι M E α} {Q : (ι → α) → Prop} (h : wp p Q) :
    wpE p (fun r => ∃ v : ι → α, (∀ i, r i = .ok (v i)) ∧ Q v) := by
  obtain ⟨v, l, h, hQ⟩ := h
  exact ⟨_, l, h, v, fun _ => rfl, hQ⟩

theorem wp.mono {p : ι → Prog ι M E α} {Q Q' : (ι → α) → Prop} (h : wp p Q)
    (hq : ∀ v, Q v → Q' v) : wp p Q' := by
  obtain ⟨v, l, h, hQ⟩ := h
  exact ⟨v, l, h, hq v hQ⟩

theorem wpE.mono {p : ι → Prog ι M E α} {Q Q' : (ι → Except E α) → Prop} (h : wpE p Q)
    (hq : ∀ v, Q v → Q' v) : wpE p Q' := by
  obtain ⟨v, l, h, hQ⟩ := h
  exact ⟨v, l, h, hq v hQ⟩

theorem runs_ret (v : ι → α) : Runs (M := M) (E := E) (fun i => .ret (v i)) (fun i => .ok (v i))
    (fun _ => []) := ⟨0, .refl _⟩

theorem wp_ret {v : ι → α} {Q : (ι → α) → Prop} (h : Q v) :
    wp (M := M) (E := E) (fun i => .ret (v i)) Q := ⟨v, _, runs_ret v, h⟩

theorem runs_fail (e : ι → E) : Runs (M := M) (α := α) (fun i => .fail (e i))
    (fun i => .error (e i)) (fun _ => []) := ⟨0, .refl _⟩

/-- Continuation after a finished first phase: `Ok` values are passed on, errors returned. -/
def contOf (r : ι → Except E α) (k : ι → α → Prog ι M E β) (i : ι) : Prog ι M E β :=
  match r i with
  | .ok a => k i a
  | .error e => .fail e

/-- Runs compose sequentially, and views are concatenated. -/
theorem Runs.bind {p : ι → Prog ι M E α} {k : ι → α → Prog ι M E β} {r : ι → Except E α}
    {s : ι → Except E β} {l l' : ι → List (ι × M)}
    (h : Runs p r l) (h' : Runs (contOf r k) s l') :
    Runs (fun i => (p i).bind (k i)) s (fun i => l i ++ l' i) := by
  obtain ⟨n, hn⟩ := h
  obtain ⟨m, hm⟩ := h'
  refine ⟨n + m, ?_⟩
  have h1 := steps_bindAll k hn
  have h2 := steps_withLog l hm
  have e1 : (Config.init p).bindAll k = Config.init (fun i => (p i).bind (k i)) := rfl
  have e2 : (Config.final (M := M) r l).bindAll k = (Config.init (contOf r k)).withLog l := by
    ext a b
    · simp only [bindAll, Config.final, withLog, Config.init, contOf]
      cases r a <;> simp [Prog.ofExcept]
    · rfl
    · simp [bindAll, Config.final, withLog, Config.init]
  rw [e1, e2] at h1
  exact h1.trans h2

theorem Runs.bind_ok {p : ι → Prog ι M E α} {k : ι → α → Prog ι M E β} {v : ι → α}
    {s : ι → Except E β} {l l' : ι → List (ι × M)}
    (h : Runs p (fun i => .ok (v i)) l) (h' : Runs (fun i => k i (v i)) s l') :
    Runs (fun i => (p i).bind (k i)) s (fun i => l i ++ l' i) :=
  Runs.bind h (by
    have e : contOf (fun i => (.ok (v i) : Except E α)) k = fun i => k i (v i) := rfl
    rw [e]; exact h')

theorem wp_bind {p : ι → Prog ι M E α} {k : ι → α → Prog ι M E β} {Q : (ι → β) → Prop}
    (h : wp p (fun v => wp (fun i => k i (v i)) Q)) : wp (fun i => (p i).bind (k i)) Q := by
  obtain ⟨v, l, h, v', l', h', hQ⟩ := h
  exact ⟨v', _, h.bind_ok h', hQ⟩

theorem wpE_bind {p : ι → Prog ι M E α} {k : ι → α → Prog ι M E β} {Q : (ι → Except E β) → Prop}
    (h : wpE p (fun r => wpE (contOf r k) Q)) : wpE (fun i => (p i).bind (k i)) Q := by
  obtain ⟨v, l, h, v', l', h', hQ⟩ := h
  exact ⟨v', _, h.bind h', hQ⟩

theorem wpE_bind_ok {p : ι → Prog ι M E α} {k : ι → α → Prog ι M E β}
    {Q : (ι → Except E β) → Prop}
    (h : wp p (fun v => wpE (fun i => k i (v i)) Q)) : wpE (fun i => (p i).bind (k i)) Q := by
  obtain ⟨v, l, h, v', l', h', hQ⟩ := h
  exact ⟨v', _, h.bind_ok h', hQ⟩

theorem wp_of_eq {p p' : ι → Prog ι M E α} {Q : (ι → α) → Prop} (h : p = p') (hw : wp p' Q) :
    wp p Q := h ▸ hw

/-- One action of one party does not change what the run delivers. -/
theorem steps_final_iff_of_step {c d t : Config ι M E α} (ht : Stuck t) (hs : Step c d) :
    (∃ n, Steps n c t) ↔ (∃ n, Steps n d t) := by
  constructor
  · rintro ⟨n, hn⟩
    obtain ⟨m, -, hm⟩ := descent_one hn ht hs
    exact ⟨m, hm⟩
  · rintro ⟨n, hn⟩
    exact ⟨n + 1, .head hs hn⟩

end Basic

/-! ## One communication round among any number of parties -/

section Round

variable {ι M E α : Type} [DecidableEq ι]

/-- Send a list of messages, then continue. -/
def sendsThen : List (ι × M) → Prog ι M E α → Prog ι M E α
  | [], p => p
  | (t, m) :: xs, p => .send t m (sendsThen xs p)

/-- Receive one message from each listed party in order, then continue. -/
def recvsThen : List ι → (List M → Prog ι M E α) → Prog ι M E α
  | [], k => k []
  | s :: ss, k => .recv s (fun m => recvsThen ss (fun ms => k (m :: ms)))

/-- Messages of a list that go to one party. -/
def msgsTo (j : ι) : List (ι × M) → List M
  | [] => []
  | (t, m) :: xs => if t = j then m :: msgsTo j xs else msgsTo j xs

theorem steps_sendsThen {i : ι} {outs : List (ι × M)} {p : Prog ι M E α} {c : Config ι M E α}
    (h : c.progs i = sendsThen outs p) :
    Steps outs.length c
      { progs := fun j => if j = i then p else c.progs j
        chan := fun a b => if a = i then c.chan a b ++ msgsTo b outs else c.chan a b
        log := c.log } := by
  induction outs generalizing c with
  | nil =>
    have : c = { progs := fun j => if j = i then p else c.progs j
                 chan := fun a b => if a = i then c.chan a b ++ msgsTo b [] else c.chan a b
                 log := c.log } := by
      ext a b
      · simp only; split
        · next h' => subst h'; simpa [sendsThen] using h
        · rfl
      · simp [msgsTo]
      · rfl
    nth_rewrite 1 [this]
    exact .refl _
  | cons x xs ih =>
    obtain ⟨t, m⟩ := x
    have hs := step?_send (c := c) (i := i) h
    refine .head ⟨i, hs⟩ ?_
    have := ih (c := (c.setChan i t (c.chan i t ++ [m])).setProg i (sendsThen xs p)) (by simp)
    convert this using 1
    ext a b
    · simp; grind
    · simp only [setProg_chan, setChan_chan, msgsTo]
      by_cases h1 : a = i <;> by_cases h2 : b = t <;> simp_all [eq_comm]
    · rfl

theorem steps_recvsThen {i : ι} {ins : List ι} {k : List M → Prog ι M E α} {c : Config ι M E α}
    {msg : ι → M} (h : c.progs i = recvsThen ins k) (hn : ins.Nodup)
    (hm : ∀ s ∈ ins, c.chan s i = [msg s]) :
    Steps ins.length c
      { progs := fun j => if j = i then k (ins.map msg) else c.progs j
        chan := fun a b => if b = i ∧ a ∈ ins then [] else c.chan a b
        log := fun j => if j = i then c.log j ++ ins.map (fun s => (s, msg s)) else c.log j } := by
  induction ins generalizing c k with
  | nil =>
    have : c = { progs := fun j => if j = i then k ([].map msg) else c.progs j
                 chan := fun a b => if b = i ∧ a ∈ [] then [] else c.chan a b
                 log := fun j => if j = i then c.log j ++ [].map (fun s => (s, msg s)) else c.log j } := by
      ext a b
      · simp only; split
        · next h' => subst h'; simpa [recvsThen] using h
        · rfl
      · simp
      · simp
    nth_rewrite 1 [this]
    exact .refl _
  | cons s ss ih =>
    have hs := step?_recv (c := c) (i := i) h (hm s (by simp))
    refine .head ⟨i, hs⟩ ?_
    have hnd := List.nodup_cons.mp hn
    have := ih (k := fun ms => k (msg s :: ms))
      (c := ((c.setChan s i []).addLog i (s, msg s)).setProg i
        (recvsThen ss (fun ms => k (msg s :: ms)))) (by simp) hnd.2 (by
          intro x hx
          have hne : x ≠ s := by rintro rfl; exact hnd.1 hx
          simp [hne, hm x (by simp [hx])])
    convert this using 1
    ext a b
    · simp; grind
    · simp; grind
    · simp; grind

/-- One round among any number of parties: every party first sends a list of messages and then
receives from a list of parties; every receive is matched by exactly one send. -/
theorem steps_round [Fintype ι] {outs : ι → List (ι × M)} {ins : ι → List ι} {msg : ι → ι → M}
    {k : ι → List M → Prog ι M E α}
    (hout : ∀ i j, msgsTo j (outs i) = if i ∈ ins j then [msg i j] else [])
    (hn : ∀ j, (ins j).Nodup) :
    ∃ n, Steps n
      (Config.init fun i => sendsThen (outs i) (recvsThen (ins i) (k i)))
      { progs := fun i => k i ((ins i).map (msg · i))
        chan := fun _ _ => []
        log := fun i => (ins i).map (fun s => (s, msg s i)) } := by
  -- all sends
  have h1 : ∀ ps : List ι, ps.Nodup → ∃ n, Steps n
      (Config.init fun i => sendsThen (outs i) (recvsThen (ins i) (k i)))
      { progs := fun i => if i ∈ ps then recvsThen (ins i) (k i)
          else sendsThen (outs i) (recvsThen (ins i) (k i))
        chan := fun a b => if a ∈ ps then (if a ∈ ins b then [msg a b] else []) else []
        log := fun _ => [] } := by
    intro ps
    induction ps with
    | nil => intro _; exact ⟨0, by simpa [Config.init] using Steps.refl _⟩
    | cons x xs ih =>
      intro hnd
      obtain ⟨n, hn'⟩ := ih (List.nodup_cons.mp hnd).2
      have hx : x ∉ xs := (List.nodup_cons.mp hnd).1
      have := steps_sendsThen (i := x) (outs := outs x) (p := recvsThen (ins x) (k x))
        (c := { progs := fun i => if i ∈ xs then recvsThen (ins i) (k i)
                  else sendsThen (outs i) (recvsThen (ins i) (k i))
                chan := fun a b => if a ∈ xs then (if a ∈ ins b then [msg a b] else []) else []
                log := fun _ => [] }) (by simp [hx])
      refine ⟨n + (outs x).length, hn'.trans ?_⟩
      convert this using 1
      ext a b
      · simp; grind
      · simp only [hout, List.mem_cons]; grind
      · rfl
  -- all receives
  have h2 : ∀ ps : List ι, ps.Nodup → ∃ n, Steps n
      { progs := fun i => recvsThen (ins i) (k i)
        chan := fun a b => if a ∈ ins b then [msg a b] else []
        log := fun _ => [] }
      { progs := fun i => if i ∈ ps then k i ((ins i).map (msg · i)) else recvsThen (ins i) (k i)
        chan := fun a b => if b ∈ ps then [] else (if a ∈ ins b then [msg a b] else [])
        log := fun i => if i ∈ ps then (ins i).map (fun s => (s, msg s i)) else [] } := by
    intro ps
    induction ps with
    | nil => intro _; exact ⟨0, by simpa using Steps.refl _⟩
    | cons x xs ih =>
      intro hnd
      obtain ⟨n, hn'⟩ := ih (List.nodup_cons.mp hnd).2
      have hx : x ∉ xs := (List.nodup_cons.mp hnd).1
      have := steps_recvsThen (i := x) (ins := ins x) (k := k x) (msg := (msg · x))
        (c := { progs := fun i => if i ∈ xs then k i ((ins i).map (msg · i))
                  else recvsThen (ins i) (k i)
                chan := fun a b => if b ∈ xs then [] else (if a ∈ ins b then [msg a b] else [])
                log := fun i => if i ∈ xs then (ins i).map (fun s => (s, msg s i)) else [] })
        (by simp [hx]) (hn x) (by intro s hs; simp [hx, hs])
      refine ⟨n + (ins x).length, hn'.trans ?_⟩
      convert this using 1
      ext a b
      · simp; grind
      · simp only [List.mem_cons]; grind
      · simp; grind
  obtain ⟨n1, h1⟩ := h1 Finset.univ.toList (Finset.nodup_toList _)
  obtain ⟨n2, h2⟩ := h2 Finset.univ.toList (Finset.nodup_toList _)
  refine ⟨n1 + n2, ?_⟩
  simp only [Finset.mem_toList, Finset.mem_univ, if_true] at h1 h2
  exact h1.trans h2

theorem runs_round [Fintype ι] {outs : ι → List (ι × M)} {ins : ι → List ι} {msg : ι → ι → M}
    {k : ι → List M → α}
    (hout : ∀ i j, msgsTo j (outs i) = if i ∈ ins j then [msg i j] else [])
    (hn : ∀ j, (ins j).Nodup) :
    Runs (E := E) (fun i => sendsThen (outs i) (recvsThen (ins i) (fun ms => .ret (k i ms))))
      (fun i => .ok (k i ((ins i).map (msg · i))))
      (fun i => (ins i).map (fun s => (s, msg s i))) := by
  obtain ⟨n, h⟩ := steps_round (E := E) (k := fun i ms => .ret (k i ms)) hout hn
  exact ⟨n, h⟩

end Round

end Verif
