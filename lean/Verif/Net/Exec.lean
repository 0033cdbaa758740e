import Verif.Net.Prog

/-!
# Executions of several parties and independence of the schedule

Channels are reliable FIFO queues, one for every ordered pair of parties:
`/repo/mpc-net/src/local.rs:26-57` (one channel per ordered pair),
`/repo/mpc-net/src/lib.rs:34-47`.

Simplifications: channels are unbounded (the local network bounds them by 32 messages, the TCP
networks by OS buffers) and no timeout fires.
-/

namespace Verif

set_option linter.unusedSectionVars false

variable {ι M E α β : Type} [DecidableEq ι]

/-- Global state of a run: the remaining program of each party, the messages in flight from one
party to another (oldest first), and for each party the list of all messages it has received so
far (its view, oldest first). -/
structure Config (ι M E α : Type) where
  progs : ι → Prog ι M E α
  chan : ι → ι → List M
  log : ι → List (ι × M)

namespace Config

/-- Change the program of one party. -/
def setProg (c : Config ι M E α) (i : ι) (p : Prog ι M E α) : Config ι M E α :=
  { c with progs := fun j => if j = i then p else c.progs j }

/-- Change one channel. -/
def setChan (c : Config ι M E α) (i j : ι) (q : List M) : Config ι M E α :=
  { c with chan := fun a b => if a = i ∧ b = j then q else c.chan a b }

/-- Append to the view of one party. -/
def addLog (c : Config ι M E α) (i : ι) (x : ι × M) : Config ι M E α :=
  { c with log := fun j => if j = i then c.log j ++ [x] else c.log j }

/-- One action of party `i`, if it has one: a send always succeeds, a receive blocks until a
message is there. Models `LocalNetwork::send` / `recv`, `/repo/mpc-net/src/local.rs:70-98`. -/
def step? (i : ι) (c : Config ι M E α) : Option (Config ι M E α) :=
  match c.progs i with
  | .ret _ => none
  | .fail _ => none
  | .send t m k => some ((c.setChan i t (c.chan i t ++ [m])).setProg i k)
  | .recv s k =>
    match c.chan s i with
    | [] => none
    | m :: q => some (((c.setChan s i q).addLog i (s, m)).setProg i (k m))

/-- Some party acts. -/
def Step (c d : Config ι M E α) : Prop := ∃ i, step? i c = some d

/-- No party can act. -/
def Stuck (c : Config ι M E α) : Prop := ∀ i, step? i c = none

/-- `n` actions lead from `c` to `d`. -/
inductive Steps : Nat → Config ι M E α → Config ι M E α → Prop where
  | refl (c) : Steps 0 c c
  | head {n c d e} : Step c d → Steps n d e → Steps (n + 1) c e

/-- Start of a run: nothing in flight, nothing received. -/
def init (p : ι → Prog ι M E α) : Config ι M E α :=
  { progs := p, chan := fun _ _ => [], log := fun _ => [] }

/-- End of a run: every party has returned, nothing in flight, with the given views. -/
def final (r : ι → Except E α) (l : ι → List (ι × M)) : Config ι M E α :=
  { progs := fun i => .ofExcept (r i), chan := fun _ _ => [], log := l }

theorem Steps.trans {n m : Nat} {c d e : Config ι M E α} (h₁ : Steps n c d) (h₂ : Steps m d e) :
    Steps (n + m) c e := by
  induction h₁ with
  | refl c => simpa using h₂
  | @head n c d e' hs _ ih =>
    have := Steps.head hs (ih h₂)
    rwa [Nat.add_right_comm]

theorem Steps.single {c d : Config ι M E α} (h : Step c d) : Steps 1 c d :=
  .head h (.refl d)

@[ext] theorem ext' {c d : Config ι M E α} (h₁ : ∀ i, c.progs i = d.progs i)
    (h₂ : ∀ i j, c.chan i j = d.chan i j) (h₃ : ∀ i, c.log i = d.log i) : c = d := by
  cases c; cases d
  simp only [mk.injEq]
  exact ⟨funext h₁, funext fun i => funext fun j => h₂ i j, funext h₃⟩

@[simp] theorem setProg_progs (c : Config ι M E α) (i : ι) (p) (j : ι) :
    (c.setProg i p).progs j = if j = i then p else c.progs j := rfl
@[simp] theorem setProg_chan (c : Config ι M E α) (i : ι) (p) : (c.setProg i p).chan = c.chan := rfl
@[simp] theorem setProg_log (c : Config ι M E α) (i : ι) (p) : (c.setProg i p).log = c.log := rfl
@[simp] theorem setChan_progs (c : Config ι M E α) (i j : ι) (q) :
    (c.setChan i j q).progs = c.progs := rfl
@[simp] theorem setChan_chan (c : Config ι M E α) (i j : ι) (q) (a b : ι) :
    (c.setChan i j q).chan a b = if a = i ∧ b = j then q else c.chan a b := rfl
@[simp] theorem setChan_log (c : Config ι M E α) (i j : ι) (q) :
    (c.setChan i j q).log = c.log := rfl
@[simp] theorem addLog_progs (c : Config ι M E α) (i : ι) (x) : (c.addLog i x).progs = c.progs := rfl
@[simp] theorem addLog_chan (c : Config ι M E α) (i : ι) (x) : (c.addLog i x).chan = c.chan := rfl
@[simp] theorem addLog_log (c : Config ι M E α) (i : ι) (x) (j : ι) :
    (c.addLog i x).log j = if j = i then c.log j ++ [x] else c.log j := rfl

theorem step?_send {c : Config ι M E α} {i t m k} (h : c.progs i = .send t m k) :
    step? i c = some ((c.setChan i t (c.chan i t ++ [m])).setProg i k) := by
  simp [step?, h]

theorem step?_recv {c : Config ι M E α} {i s k m q} (h : c.progs i = .recv s k)
    (hq : c.chan s i = m :: q) :
    step? i c = some (((c.setChan s i q).addLog i (s, m)).setProg i (k m)) := by
  simp [step?, h, hq]

/-- An action of a party is a send or an enabled receive. -/
theorem step?_cases {c d : Config ι M E α} {i : ι} (h : step? i c = some d) :
    (∃ t m k, c.progs i = .send t m k ∧ d = (c.setChan i t (c.chan i t ++ [m])).setProg i k) ∨
    (∃ s k m q, c.progs i = .recv s k ∧ c.chan s i = m :: q ∧
      d = ((c.setChan s i q).addLog i (s, m)).setProg i (k m)) := by
  unfold step? at h
  cases hp : c.progs i with
  | ret a => simp [hp] at h
  | fail e => simp [hp] at h
  | send t m k =>
    simp [hp] at h
    exact Or.inl ⟨t, m, k, rfl, h.symm⟩
  | recv s k =>
    simp [hp] at h
    cases hq : c.chan s i with
    | nil => simp [hq] at h
    | cons m q =>
      simp [hq] at h
      exact Or.inr ⟨s, k, m, q, rfl, hq, h.symm⟩

/-- Actions of two different parties commute. -/
theorem diamond {c d₁ d₂ : Config ι M E α} {i j : ι} (hij : i ≠ j)
    (h₁ : step? i c = some d₁) (h₂ : step? j c = some d₂) :
    ∃ e, step? j d₁ = some e ∧ step? i d₂ = some e := by
  have hji : j ≠ i := hij.symm
  rcases step?_cases h₁ with ⟨t, m, k, hp, rfl⟩ | ⟨s, k, m, q, hp, hq, rfl⟩ <;>
  rcases step?_cases h₂ with ⟨t', m', k', hp', rfl⟩ | ⟨s', k', m', q', hp', hq', rfl⟩
  · refine ⟨_, step?_send (t := t') (m := m') (k := k') ?_, ?_⟩
    · simp [hji, hp']
    · rw [step?_send (t := t) (m := m) (k := k) (by simp [hij, hp])]
      congr 1
      ext a b
      · simp; grind
      · simp [hij, hji]; grind
      · simp
  · have hq2 : ((c.setChan i t (c.chan i t ++ [m])).setProg i k).chan s' j =
        m' :: (if s' = i ∧ j = t then q' ++ [m] else q') := by
      by_cases h : s' = i ∧ j = t
      · obtain ⟨rfl, rfl⟩ := h; simp [hq']
      · simp [h, hq']
    refine ⟨_, step?_recv (s := s') (k := k') ?_ hq2, ?_⟩
    · simp [hji, hp']
    · rw [step?_send (t := t) (m := m) (k := k) (by simp [hij, hp])]
      congr 1
      ext a b
      · simp; grind
      · simp; grind
      · simp
  · have hq1 : ((c.setChan j t' (c.chan j t' ++ [m'])).setProg j k').chan s i =
        m :: (if s = j ∧ i = t' then q ++ [m'] else q) := by
      by_cases h : s = j ∧ i = t'
      · obtain ⟨rfl, rfl⟩ := h; simp [hq]
      · simp [h, hq]
    refine ⟨_, step?_send (t := t') (m := m') (k := k') ?_, ?_⟩
    · simp [hji, hp']
    · rw [step?_recv (s := s) (k := k) (by simp [hij, hp]) hq1]
      congr 1
      ext a b
      · simp; grind
      · simp; grind
      · simp
  · refine ⟨_, step?_recv (s := s') (k := k') (m := m') (q := q') ?_ ?_, ?_⟩
    · simp [hji, hp']
    · simp [hji, hq']
    · rw [step?_recv (s := s) (k := k) (m := m) (q := q) (by simp [hij, hp]) (by simp [hij, hq])]
      congr 1
      ext a b
      · simp; grind
      · simp; grind
      · simp; grind

/-- If one action leads to `d` and some other to `e`, both can be completed to a common state by at
most one further action each, or they are the same. -/
theorem step_join {c d e : Config ι M E α} (h₁ : Step c d) (h₂ : Step c e) :
    d = e ∨ ∃ f, Step d f ∧ Step e f := by
  obtain ⟨i, hi⟩ := h₁
  obtain ⟨j, hj⟩ := h₂
  by_cases hij : i = j
  · subst hij
    left
    rw [hi] at hj
    exact Option.some.inj hj
  · obtain ⟨f, hf₁, hf₂⟩ := diamond hij hi hj
    exact Or.inr ⟨f, ⟨j, hf₁⟩, ⟨i, hf₂⟩⟩

/-- Random descent: if `n` actions lead to a stuck state then every action leads to a state from
which `n - 1` actions lead to the same stuck state. -/
theorem descent_one {n : Nat} {c d t : Config ι M E α} (h : Steps n c t) (ht : Stuck t)
    (hs : Step c d) : ∃ m, n = m + 1 ∧ Steps m d t := by
  induction n generalizing c d with
  | zero =>
    cases h
    obtain ⟨i, hi⟩ := hs
    rw [ht i] at hi
    cases hi
  | succ n ih =>
    cases h with
    | head hs' hrest =>
      rename_i d'
      refine ⟨n, rfl, ?_⟩
      rcases step_join hs hs' with rfl | ⟨f, hf₁, hf₂⟩
      · exact hrest
      · obtain ⟨m, rfl, hm⟩ := ih hrest hf₂
        exact .head hf₁ hm

/-- Random descent for any number of actions. -/
theorem descent {n m : Nat} {c d t : Config ι M E α} (h : Steps n c t) (ht : Stuck t)
    (hs : Steps m c d) : ∃ k, n = m + k ∧ Steps k d t := by
  induction hs generalizing n with
  | refl c => exact ⟨n, by simp, h⟩
  | head hs _ ih =>
    obtain ⟨n', rfl, h'⟩ := descent_one h ht hs
    obtain ⟨k, rfl, hk⟩ := ih h'
    exact ⟨k, by omega, hk⟩

theorem final_stuck (r : ι → Except E α) (l : ι → List (ι × M)) : Stuck (final (M := M) r l) := by
  intro i
  simp only [step?, final]
  cases h : r i <;> simp [Prog.ofExcept]

/-- Actions are preserved when every party continues with some program afterwards. -/
def bindAll (c : Config ι M E α) (k : ι → α → Prog ι M E β) : Config ι M E β :=
  { progs := fun i => (c.progs i).bind (k i), chan := c.chan, log := c.log }

theorem step_bindAll {c d : Config ι M E α} (k : ι → α → Prog ι M E β) (h : Step c d) :
    Step (c.bindAll k) (d.bindAll k) := by
  obtain ⟨i, hi⟩ := h
  refine ⟨i, ?_⟩
  rcases step?_cases hi with ⟨t, m, k', hp, rfl⟩ | ⟨s, k', m, q, hp, hq, rfl⟩
  · rw [step?_send (t := t) (m := m) (k := k'.bind (k i)) (by simp [bindAll, hp])]
    congr 1
    ext a b
    · simp only [setProg_progs, setChan_progs, bindAll]; split <;> simp_all
    · rfl
    · rfl
  · rw [step?_recv (s := s) (k := fun m => (k' m).bind (k i)) (m := m) (q := q)
      (by simp [bindAll, hp]) (by simp [bindAll, hq])]
    congr 1
    ext a b
    · simp only [setProg_progs, setChan_progs, addLog_progs, bindAll]; split <;> simp_all
    · rfl
    · rfl

theorem steps_bindAll {n : Nat} {c d : Config ι M E α} (k : ι → α → Prog ι M E β)
    (h : Steps n c d) : Steps n (c.bindAll k) (d.bindAll k) := by
  induction h with
  | refl c => exact .refl _
  | head hs _ ih => exact .head (step_bindAll k hs) ih

/-- Prefixing all views does not change what can happen. -/
def withLog (c : Config ι M E α) (l : ι → List (ι × M)) : Config ι M E α :=
  { c with log := fun i => l i ++ c.log i }

theorem step_withLog {c d : Config ι M E α} (l : ι → List (ι × M)) (h : Step c d) :
    Step (c.withLog l) (d.withLog l) := by
  obtain ⟨i, hi⟩ := h
  refine ⟨i, ?_⟩
  rcases step?_cases hi with ⟨t, m, k', hp, rfl⟩ | ⟨s, k', m, q, hp, hq, rfl⟩
  · rw [step?_send (t := t) (m := m) (k := k') (by simp [withLog, hp])]
    rfl
  · rw [step?_recv (s := s) (k := k') (m := m) (q := q)
      (by simp [withLog, hp]) (by simp [withLog, hq])]
    congr 1
    ext a b
    · rfl
    · rfl
    · simp only [setProg_log, addLog_log, setChan_log, withLog]; split <;> simp

theorem steps_withLog {n : Nat} {c d : Config ι M E α} (l : ι → List (ι × M))
    (h : Steps n c d) : Steps n (c.withLog l) (d.withLog l) := by
  induction h with
  | refl c => exact .refl _
  | head hs _ ih => exact .head (step_withLog l hs) ih

end Config

end Verif
