import Verif.Net.MPC
import Mathlib.Data.Fintype.Prod

/-!
# Two networks and `join`

Some functions get two networks and two states and run two sub-protocols at the same time, one on each
network.  Models `mpc_net::join`, `/repo/mpc-net/src/lib.rs:139-149`.

A network handle is used by one thread of a party at a time.  The actors of an execution are therefore
pairs of a party and one of its two networks: `(i, false)` runs the code of party `i` that uses the first
network and `(i, true)` the code that uses the second one.  The two actors of one party synchronise where
`join` starts its closures and where it waits for them; the other parties do not take part in this.  All
actors are scheduled independently, and every network has its own channels.
-/

namespace Verif

open Config

/-- What the two actors of one party tell each other: the closure for the second network is started (with
the values it captures), is not going to be started, or has returned. -/
inductive Join (A Y : Type) : Type where
  | start (a : A)
  | stop
  | done (y : Except Err Y)

section Def

variable {ι M A X Y C α γ : Type}

/-- Run the code `p` of one party on the network `b`, then continue with what it returned. -/
def Prog.runOn {J : Type} (b : Bool) : Prog ι M Err α →
    (Except Err α → Prog (ι × Bool) (M ⊕ J) Err γ) → Prog (ι × Bool) (M ⊕ J) Err γ
  | .ret a, k => k (.ok a)
  | .fail e, k => k (.error e)
  | .send t m p, k => .send (t, b) (.inl m) (p.runOn b k)
  | .recv s p, k => .recv (s, b) fun
    | .inl m => (p m).runOn b k
    | .inr _ => k (.error (.panic "unreachable"))

/-- The code after `join`: both results are unwrapped with `?`, then comes `post`.
A panic of the first closure is raised again when it is joined. -/
def afterJoin (post : X → Y → Prog ι M Err C) : Except Err X → Except Err Y → Prog ι M Err C
  | .error e, _ => .fail e
  | .ok _, .error e => .fail e
  | .ok x, .ok y => post x y

/-- The first actor after it heard from the second one. -/
def joinDone {A : Type} (post : X → Y → Prog ι M Err C) (x : Except Err X) :
    M ⊕ Join A Y → Prog (ι × Bool) (M ⊕ Join A Y) Err (Option C)
  | .inr (.done y) => (afterJoin post x y).runOn false fun r => .ofExcept (r.map some)
  | _ => .fail (.panic "unreachable")

/-- The first actor after its closure returned `x`: wait for the other closure. -/
def joinWait {A : Type} (i : ι) (post : X → Y → Prog ι M Err C) (x : Except Err X) :
    Prog (ι × Bool) (M ⊕ Join A Y) Err (Option C) :=
  .recv (i, true) (joinDone post x)

/-- The first actor after `pre`: start both closures and run the first one. -/
def joinMain (i : ι) (f₀ : A → Prog ι M Err X) (post : A → X → Y → Prog ι M Err C) :
    Except Err A → Prog (ι × Bool) (M ⊕ Join A Y) Err (Option C)
  | .error e => .send (i, true) (.inr .stop) (.fail e)
  | .ok a => .send (i, true) (.inr (.start a)) ((f₀ a).runOn false (joinWait i (post a)))

/-- The second actor after it was told whether to start. -/
def joinHelper (i : ι) (f₁ : A → Prog ι M Err Y) :
    M ⊕ Join A Y → Prog (ι × Bool) (M ⊕ Join A Y) Err (Option C)
  | .inr (.start a) => (f₁ a).runOn true fun y => .send (i, false) (.inr (.done y)) (.ret none)
  | .inr .stop => .ret none
  | _ => .fail (.panic "unreachable")

/-- A function that runs `pre` on the first network, then `f₀` on the first and `f₁` on the second network
at the same time (`mpc_net::join`), then `post` on the first network.
`/repo/mpc-net/src/lib.rs:139-149` -/
def forkJoin (pre : ι → Prog ι M Err A) (f₀ : ι → A → Prog ι M Err X) (f₁ : ι → A → Prog ι M Err Y)
    (post : ι → A → X → Y → Prog ι M Err C) :
    ι × Bool → Prog (ι × Bool) (M ⊕ Join A Y) Err (Option C)
  | (i, false) => (pre i).runOn false (joinMain i (f₀ i) (post i))
  | (i, true) => .recv (i, false) (joinHelper i (f₁ i))

end Def

section Proof

set_option linter.unusedSectionVars false
set_option linter.unnecessarySeqFocus false

variable {ι M J A X Y C α β γ : Type} [DecidableEq ι]

/-- Two executions, one on each network, side by side; `L` are the messages received before. -/
def Config.par (c : Config ι M Err α) (d : Config ι M Err β)
    (k₀ : ι → Except Err α → Prog (ι × Bool) (M ⊕ J) Err γ)
    (k₁ : ι → Except Err β → Prog (ι × Bool) (M ⊕ J) Err γ)
    (L : ι × Bool → List ((ι × Bool) × (M ⊕ J))) : Config (ι × Bool) (M ⊕ J) Err γ where
  progs x := if x.2 then (d.progs x.1).runOn true (k₁ x.1) else (c.progs x.1).runOn false (k₀ x.1)
  chan x y := if x.2 = y.2 then ((if x.2 then d.chan x.1 y.1 else c.chan x.1 y.1).map .inl) else []
  log x := L x ++ (if x.2 then d.log x.1 else c.log x.1).map fun m => ((m.1, x.2), .inl m.2)

variable {k₀ : ι → Except Err α → Prog (ι × Bool) (M ⊕ J) Err γ}
  {k₁ : ι → Except Err β → Prog (ι × Bool) (M ⊕ J) Err γ}
  {L : ι × Bool → List ((ι × Bool) × (M ⊕ J))}

theorem step_par_left {c c' : Config ι M Err α} {d : Config ι M Err β} (h : Step c c') :
    Step (c.par d k₀ k₁ L) (c'.par d k₀ k₁ L) := by
  obtain ⟨i, hi⟩ := h
  refine ⟨(i, false), ?_⟩
  rcases step?_cases hi with ⟨t, m, k', hp, rfl⟩ | ⟨s, k', m, q, hp, hq, rfl⟩
  · rw [step?_send (t := (t, false)) (m := .inl m) (k := k'.runOn false (k₀ i))
      (by simp [Config.par, hp, Prog.runOn])]
    congr 1
    ext ⟨a, x⟩ b
    · cases x <;> simp [Config.par] <;> grind
    · obtain ⟨b, y⟩ := b
      cases x <;> cases y <;> simp [Config.par] <;> grind
    · cases x <;> simp [Config.par]
  · rw [step?_recv (s := (s, false)) (m := .inl m) (q := q.map .inl)
      (k := fun
        | .inl m => (k' m).runOn false (k₀ i)
        | .inr _ => k₀ i (.error (.panic "unreachable")))
      (by simp [Config.par, hp, Prog.runOn]) (by simp [Config.par, hq])]
    congr 1
    ext ⟨a, x⟩ b
    · cases x <;> simp [Config.par] <;> grind
    · obtain ⟨b, y⟩ := b
      cases x <;> cases y <;> simp [Config.par] <;> grind
    · cases x <;> simp [Config.par] <;> split <;> simp_all

theorem step_par_right {c : Config ι M Err α} {d d' : Config ι M Err β} (h : Step d d') :
    Step (c.par d k₀ k₁ L) (c.par d' k₀ k₁ L) := by
  obtain ⟨i, hi⟩ := h
  refine ⟨(i, true), ?_⟩
  rcases step?_cases hi with ⟨t, m, k', hp, rfl⟩ | ⟨s, k', m, q, hp, hq, rfl⟩
  · rw [step?_send (t := (t, true)) (m := .inl m) (k := k'.runOn true (k₁ i))
      (by simp [Config.par, hp, Prog.runOn])]
    congr 1
    ext ⟨a, x⟩ b
    · cases x <;> simp [Config.par] <;> grind
    · obtain ⟨b, y⟩ := b
      cases x <;> cases y <;> simp [Config.par] <;> grind
    · cases x <;> simp [Config.par]
  · rw [step?_recv (s := (s, true)) (m := .inl m) (q := q.map .inl)
      (k := fun
        | .inl m => (k' m).runOn true (k₁ i)
        | .inr _ => k₁ i (.error (.panic "unreachable")))
      (by simp [Config.par, hp, Prog.runOn]) (by simp [Config.par, hq])]
    congr 1
    ext ⟨a, x⟩ b
    · cases x <;> simp [Config.par] <;> grind
    · obtain ⟨b, y⟩ := b
      cases x <;> cases y <;> simp [Config.par] <;> grind
    · cases x <;> simp [Config.par] <;> split <;> simp_all

/-- From any views, some execution leads from the programs `P` to the programs `P'`, with nothing in
flight before and after. -/
def Phase {ι M E α : Type} [DecidableEq ι] (P P' : ι → Prog ι M E α) : Prop :=
  ∀ L, ∃ n L', Steps n ⟨P, fun _ _ => [], L⟩ ⟨P', fun _ _ => [], L'⟩

theorem Phase.trans {ι M E α : Type} [DecidableEq ι] {P P' P'' : ι → Prog ι M E α} (h : Phase P P')
    (h' : Phase P' P'') : Phase P P'' := by
  intro L
  obtain ⟨n, L', hn⟩ := h L
  obtain ⟨m, L'', hm⟩ := h' L'
  exact ⟨n + m, L'', hn.trans hm⟩

theorem Phase.then {ι M E α : Type} [DecidableEq ι] {P P' Q' P'' : ι → Prog ι M E α} (h : Phase P P')
    (e : ∀ i, P' i = Q' i) (h' : Phase Q' P'') : Phase P P'' := by
  rw [← funext e] at h'
  exact h.trans h'

theorem Phase.congr {ι M E α : Type} [DecidableEq ι] {P P' Q Q' : ι → Prog ι M E α} (e : ∀ i, P i = P' i)
    (e' : ∀ i, Q' i = Q i) (h : Phase P' Q') : Phase P Q := by
  rw [funext e, ← funext e']
  exact h

theorem Phase.runs {ι M E α : Type} [DecidableEq ι] {P : ι → Prog ι M E α} {r : ι → Except E α}
    (h : Phase P (fun i => .ofExcept (r i))) : ∃ l, Runs P r l := by
  obtain ⟨n, L', hn⟩ := h fun _ => []
  exact ⟨L', n, hn⟩

/-- Actors with one program each for the two networks. -/
def two {T : Type} (f g : ι → T) (x : ι × Bool) : T := if x.2 then g x.1 else f x.1

theorem Phase.par {p : ι → Prog ι M Err α} {q : ι → Prog ι M Err β} {r : ι → Except Err α}
    {s : ι → Except Err β} {l l' : ι → List (ι × M)} (hp : Runs p r l) (hq : Runs q s l') :
    Phase (two (fun i => (p i).runOn false (k₀ i)) (fun i => (q i).runOn true (k₁ i)))
      (two (fun i => k₀ i (r i)) (fun i => k₁ i (s i))) := by
  intro L
  obtain ⟨n, hn⟩ := hp
  obtain ⟨m, hm⟩ := hq
  have h1 : ∀ {n} {c c' : Config ι M Err α} {d : Config ι M Err β}, Steps n c c' →
      Steps n (c.par d k₀ k₁ L) (c'.par d k₀ k₁ L) := by
    intro n c c' d h
    induction h with
    | refl c => exact .refl _
    | head hs _ ih => exact .head (step_par_left hs) ih
  have h2 : ∀ {n} {c : Config ι M Err α} {d d' : Config ι M Err β}, Steps n d d' →
      Steps n (c.par d k₀ k₁ L) (c.par d' k₀ k₁ L) := by
    intro n c d d' h
    induction h with
    | refl c => exact .refl _
    | head hs _ ih => exact .head (step_par_right hs) ih
  have h := (h1 (d := Config.init q) hn).trans (h2 hm)
  have e1 : (Config.init p).par (Config.init q) k₀ k₁ L =
      ⟨two (fun i => (p i).runOn false (k₀ i)) (fun i => (q i).runOn true (k₁ i)), fun _ _ => [], L⟩ := by
    ext ⟨a, x⟩ b <;> simp [Config.par, Config.init, two]
  have e2 : ∃ L', (Config.final r l).par (Config.final s l') k₀ k₁ L =
      ⟨two (fun i => k₀ i (r i)) (fun i => k₁ i (s i)), fun _ _ => [], L'⟩ := by
    refine ⟨((Config.final r l).par (Config.final s l') k₀ k₁ L).log, ?_⟩
    ext ⟨a, x⟩ b
    · cases x
      · simp only [Config.par, Config.final, two]
        cases r a <;> simp [Prog.ofExcept, Prog.runOn]
      · simp only [Config.par, Config.final, two]
        cases s a <;> simp [Prog.ofExcept, Prog.runOn]
    · simp [Config.par, Config.final]
    · rfl
  obtain ⟨L', e2⟩ := e2
  rw [e1, e2] at h
  exact ⟨_, L', h⟩

/-- One actor of every party sends a message to the other one. -/
theorem Phase.handoff [Fintype ι] {J : Type} (m : ι → M ⊕ J) (b : Bool)
    (p : ι → Prog (ι × Bool) (M ⊕ J) Err γ) (k : ι → M ⊕ J → Prog (ι × Bool) (M ⊕ J) Err γ) :
    Phase (fun x => if x.2 = b then .send (x.1, !b) (m x.1) (p x.1) else .recv (x.1, b) (k x.1))
      (fun x => if x.2 = b then p x.1 else k x.1 (m x.1)) := by
  intro L
  obtain ⟨n, hn⟩ := steps_round (E := Err)
    (outs := fun x : ι × Bool => if x.2 = b then [((x.1, !b), m x.1)] else [])
    (ins := fun x => if x.2 = b then [] else [(x.1, b)]) (msg := fun x _ => m x.1)
    (k := fun x ms => if x.2 = b then p x.1 else match ms with
      | [y] => k x.1 y
      | _ => .fail (.panic ""))
    (by
      rintro ⟨i, x⟩ ⟨j, y⟩
      cases x <;> cases y <;> cases b <;> simp [msgsTo, eq_comm])
    (by rintro ⟨j, y⟩; simp only; split <;> simp)
  have h := steps_withLog L hn
  have e : (fun i : ι × Bool => sendsThen (if i.2 = b then [((i.1, !b), m i.1)] else [])
        (recvsThen (if i.2 = b then [] else [(i.1, b)]) fun ms => if i.2 = b then p i.1 else match ms with
          | [y] => k i.1 y
          | _ => .fail (.panic ""))) =
      fun x => if x.2 = b then .send (x.1, !b) (m x.1) (p x.1) else .recv (x.1, b) (k x.1) := by
    funext x
    by_cases hx : x.2 = b <;> simp [hx, sendsThen, recvsThen]
  simp only [e] at h
  refine ⟨n, fun x => L x ++ (if x.2 = b then [] else [(x.1, b)]).map fun s => (s, m s.1), ?_⟩
  convert h using 1
  · ext x y <;> simp [withLog, Config.init]
  · simp only [withLog]
    congr 1
    funext x
    by_cases hx : x.2 = b <;> simp [hx]

theorem forkJoin_runs [Fintype ι] {pre : ι → Prog ι M Err A} {f₀ : ι → A → Prog ι M Err X}
    {f₁ : ι → A → Prog ι M Err Y} {post : ι → A → X → Y → Prog ι M Err C} {a : ι → A}
    {x : ι → Except Err X} {y : ι → Except Err Y} {c : ι → Except Err C} {l1 l2 l3 l4 : ι → List (ι × M)}
    (h1 : Runs pre (fun i => .ok (a i)) l1) (h2 : Runs (fun i => f₀ i (a i)) x l2)
    (h3 : Runs (fun i => f₁ i (a i)) y l3)
    (h4 : Runs (fun i => afterJoin (post i (a i)) (x i) (y i)) c l4) :
    ∃ l, Runs (forkJoin pre f₀ f₁ post) (fun z => if z.2 then .ok none else (c z.1).map some) l := by
  have p1 := Phase.par (J := Join A Y) (γ := Option C) (k₀ := fun i => joinMain i (f₀ i) (post i))
    (k₁ := fun i (_ : Except Err Unit) => .recv (i, false) (joinHelper i (f₁ i))) h1 (runs_ret (fun _ => ()))
  have p2 := Phase.handoff (M := M) (γ := Option C) (fun i => (.inr (.start (a i)) : M ⊕ Join A Y)) false
    (fun i => (f₀ i (a i)).runOn false (joinWait i (post i (a i)))) (fun i => joinHelper i (f₁ i))
  have p3 := Phase.par (J := Join A Y) (γ := Option C) (k₀ := fun i => joinWait i (post i (a i)))
    (k₁ := fun i y => .send (i, false) (.inr (.done y)) (.ret none)) h2 h3
  have p4 := Phase.handoff (M := M) (γ := Option C) (fun i => (.inr (.done (y i)) : M ⊕ Join A Y)) true
    (fun _ => .ret none) (fun i => joinDone (post i (a i)) (x i))
  have p5 := Phase.par (J := Join A Y) (γ := Option C)
    (k₀ := fun _ (r : Except Err C) => .ofExcept (r.map some)) (k₁ := fun _ (_ : Except Err Unit) => .ret none)
    h4 (runs_ret (fun _ => ()))
  refine Phase.runs ?_
  refine Phase.congr ?_ ?_ (p1.then ?_ (p2.then ?_ (p3.then ?_ (p4.then ?_ p5)))) <;>
    (rintro ⟨i, b⟩; cases b <;> rfl)

theorem forkJoin_runs_pre [Fintype ι] {pre : ι → Prog ι M Err A} {f₀ : ι → A → Prog ι M Err X}
    {f₁ : ι → A → Prog ι M Err Y} {post : ι → A → X → Y → Prog ι M Err C} {e : ι → Err}
    {l1 : ι → List (ι × M)} (h1 : Runs pre (fun i => .error (e i)) l1) :
    ∃ l, Runs (forkJoin pre f₀ f₁ post) (fun z => if z.2 then .ok none else .error (e z.1)) l := by
  have p1 := Phase.par (J := Join A Y) (γ := Option C) (k₀ := fun i => joinMain i (f₀ i) (post i))
    (k₁ := fun i (_ : Except Err Unit) => .recv (i, false) (joinHelper i (f₁ i))) h1 (runs_ret (fun _ => ()))
  have p2 := Phase.handoff (M := M) (γ := Option C) (fun _ => (.inr .stop : M ⊕ Join A Y)) false
    (fun i => .fail (e i)) (fun i => joinHelper i (f₁ i))
  refine Phase.runs ?_
  refine Phase.congr ?_ ?_ (p1.then ?_ p2) <;> (rintro ⟨i, b⟩; cases b <;> rfl)

end Proof

/-! ### Functions with two states -/

section State

variable {ι S M A X Y C : Type} [DecidableEq ι]

/-- The code after `join` continues with the state of the first network. -/
def joinPost (post : ι → A → X → Y → MPC ι S M Err C) (i : ι) (a : A × S) (x : X × S) (y : Y × S) :
    Prog ι M Err (C × S × S) :=
  (post i a.1 x.1 y.1 i x.2).bind fun c => .ret (c.1, c.2, y.2)

/-- `forkJoin` for functions with one state for each network. The result comes with both new states. -/
def forkJoinM (pre : ι → MPC ι S M Err A) (f₀ : ι → A → MPC ι S M Err X) (f₁ : ι → A → MPC ι S M Err Y)
    (post : ι → A → X → Y → MPC ι S M Err C) (st₀ st₁ : ι → S) :
    ι × Bool → Prog (ι × Bool) (M ⊕ Join (A × S) (Y × S)) Err (Option (C × S × S)) :=
  forkJoin (fun i => pre i i (st₀ i)) (fun i a => f₀ i a.1 i a.2) (fun i a => f₁ i a.1 i (st₁ i))
    (joinPost post)

/-- In every execution all parties return `Ok`, and the returned values and both new states satisfy `Q`. -/
def Ensures₂ {J : Type} (p : ι × Bool → Prog (ι × Bool) (M ⊕ J) Err (Option (C × S × S)))
    (Q : (ι → C) → (ι → S) → (ι → S) → Prop) : Prop :=
  Delivers p fun r => ∃ (c : ι → C) (s₀ s₁ : ι → S), (∀ i, r (i, false) = some (c i, s₀ i, s₁ i)) ∧ Q c s₀ s₁

/-- In every execution no party returns `Ok`: all fail with an error satisfying `P`. -/
def Fails₂ {J : Type} (p : ι × Bool → Prog (ι × Bool) (M ⊕ J) Err (Option C)) (P : Err → Prop) : Prop :=
  AllRuns p fun r _ => ∀ i, ∃ e, r (i, false) = .error e ∧ P e

theorem Ensures₂.mono {J : Type} {p : ι × Bool → Prog (ι × Bool) (M ⊕ J) Err (Option (C × S × S))}
    {Q Q' : (ι → C) → (ι → S) → (ι → S) → Prop} (h : Ensures₂ p Q) (hq : ∀ c s t, Q c s t → Q' c s t) :
    Ensures₂ p Q' :=
  Delivers.mono h fun _ ⟨c, s, t, h1, h2⟩ => ⟨c, s, t, h1, hq _ _ _ h2⟩

theorem Spec.forkJoin [Fintype ι] {pre : ι → MPC ι S M Err A} {f₀ : ι → A → MPC ι S M Err X}
    {f₁ : ι → A → MPC ι S M Err Y} {post : ι → A → X → Y → MPC ι S M Err C} {st₀ st₁ : ι → S}
    {Q : (ι → C) → (ι → S) → (ι → S) → Prop}
    (h : Spec pre st₀ fun a s₀ => Spec (fun i => f₀ i (a i)) s₀ fun x s₀ =>
      Spec (fun i => f₁ i (a i)) st₁ fun y s₁ =>
        Spec (fun i => post i (a i) (x i) (y i)) s₀ fun c s₀ => Q c s₀ s₁) :
    Ensures₂ (forkJoinM pre f₀ f₁ post st₀ st₁) Q := by
  obtain ⟨a, l1, h1, x, l2, h2, y, l3, h3, c, l4, h4, hQ⟩ := h
  have h4' : Runs (fun i => joinPost post i (a i) (x i) (y i)) _ _ :=
    h4.bind_ok (k := fun i (c : C × S) => .ret (c.1, c.2, (y i).2))
      (runs_ret (fun i => ((c i).1, (c i).2, (y i).2)))
  obtain ⟨l, hl⟩ := forkJoin_runs (f₀ := fun i a => f₀ i a.1 i a.2) (f₁ := fun i a => f₁ i a.1 i (st₁ i))
    (post := joinPost post) (a := a) (x := fun i => .ok (x i))
    (y := fun i => .ok (y i)) h1 h2 h3 h4'
  refine wp.delivers ⟨fun z => if z.2 then none else some ((c z.1).1, (c z.1).2, (y z.1).2), l, ?_,
    _, _, _, fun i => rfl, hQ⟩
  have e : (fun z : ι × Bool => (.ok (if z.2 then none else some ((c z.1).1, (c z.1).2, (y z.1).2)) :
      Except Err (Option (C × S × S)))) = fun z => if z.2 then .ok none else
        (Except.ok ((c z.1).1, (c z.1).2, (y z.1).2)).map some := by
    funext z
    rcases z with ⟨i, b⟩
    cases b <;> rfl
  exact (congrArg (fun r => Runs _ r l) e).mpr hl

/-- If the code after `join` fails at every party, the function does. -/
theorem SpecE.forkJoin_post [Fintype ι] {pre : ι → MPC ι S M Err A} {f₀ : ι → A → MPC ι S M Err X}
    {f₁ : ι → A → MPC ι S M Err Y} {post : ι → A → X → Y → MPC ι S M Err C} {st₀ st₁ : ι → S}
    {P : Err → Prop}
    (h : Spec pre st₀ fun a s₀ => Spec (fun i => f₀ i (a i)) s₀ fun x s₀ =>
      Spec (fun i => f₁ i (a i)) st₁ fun y _ =>
        SpecE (fun i => post i (a i) (x i) (y i)) s₀ fun r => ∀ i, ∃ e, r i = .error e ∧ P e) :
    Fails₂ (forkJoinM pre f₀ f₁ post st₀ st₁) P := by
  obtain ⟨a, l1, h1, x, l2, h2, y, l3, h3, c, l4, h4, hQ⟩ := h
  have hx' : ∃ e : ι → Err, (c = fun i => .error (e i)) ∧ ∀ i, P (e i) :=
    ⟨fun i => (hQ i).choose, funext fun i => (hQ i).choose_spec.1, fun i => (hQ i).choose_spec.2⟩
  obtain ⟨e, rfl, he⟩ := hx'
  have h4' : Runs (fun i => joinPost post i (a i) (x i) (y i)) _ _ :=
    h4.bind (k := fun i (c : C × S) => .ret (c.1, c.2, (y i).2)) (runs_fail e)
  obtain ⟨l, hl⟩ := forkJoin_runs (f₀ := fun i a => f₀ i a.1 i a.2) (f₁ := fun i a => f₁ i a.1 i (st₁ i))
    (post := joinPost post) (a := a) (x := fun i => .ok (x i))
    (y := fun i => .ok (y i)) h1 h2 h3 h4'
  exact hl.allRuns fun i => ⟨e i, rfl, he i⟩

/-- If the first closure fails at every party, the function does. -/
theorem SpecE.forkJoin_first [Fintype ι] {pre : ι → MPC ι S M Err A} {f₀ : ι → A → MPC ι S M Err X}
    {f₁ : ι → A → MPC ι S M Err Y} {post : ι → A → X → Y → MPC ι S M Err C} {st₀ st₁ : ι → S}
    {P : Err → Prop}
    (h : Spec pre st₀ fun a s₀ =>
      SpecE (fun i => f₀ i (a i)) s₀ (fun r => ∀ i, ∃ e, r i = .error e ∧ P e) ∧
      SpecE (fun i => f₁ i (a i)) st₁ (fun _ => True)) :
    Fails₂ (forkJoinM pre f₀ f₁ post st₀ st₁) P := by
  obtain ⟨a, l1, h1, ⟨x, l2, h2, hx⟩, ⟨y, l3, h3, -⟩⟩ := h
  have hx' : ∃ e : ι → Err, (x = fun i => .error (e i)) ∧ ∀ i, P (e i) :=
    ⟨fun i => (hx i).choose, funext fun i => (hx i).choose_spec.1, fun i => (hx i).choose_spec.2⟩
  obtain ⟨e, rfl, he⟩ := hx'
  obtain ⟨l, hl⟩ := forkJoin_runs (f₀ := fun i a => f₀ i a.1 i a.2) (f₁ := fun i a => f₁ i a.1 i (st₁ i))
    (post := joinPost post) (a := a) (x := fun i => .error (e i)) h1 h2 h3 (runs_fail e)
  exact hl.allRuns fun i => ⟨e i, rfl, he i⟩

/-- If the code before `join` fails at every party, the function does. -/
theorem SpecE.forkJoin_pre [Fintype ι] {pre : ι → MPC ι S M Err A} {f₀ : ι → A → MPC ι S M Err X}
    {f₁ : ι → A → MPC ι S M Err Y} {post : ι → A → X → Y → MPC ι S M Err C} {st₀ st₁ : ι → S}
    {P : Err → Prop} (h : SpecE pre st₀ fun r => ∀ i, ∃ e, r i = .error e ∧ P e) :
    Fails₂ (forkJoinM pre f₀ f₁ post st₀ st₁) P := by
  obtain ⟨x, l1, h1, hx⟩ := h
  have hx' : ∃ e : ι → Err, (x = fun i => .error (e i)) ∧ ∀ i, P (e i) :=
    ⟨fun i => (hx i).choose, funext fun i => (hx i).choose_spec.1, fun i => (hx i).choose_spec.2⟩
  obtain ⟨e, rfl, he⟩ := hx'
  obtain ⟨l, hl⟩ := forkJoin_runs_pre (f₀ := fun i a => f₀ i a.1 i a.2)
    (f₁ := fun i a => f₁ i a.1 i (st₁ i))
    (post := joinPost post) h1
  exact hl.allRuns fun i => ⟨e i, rfl, he i⟩

end State

end Verif
