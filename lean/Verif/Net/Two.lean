import Verif.Net.Join

/-!
# Code that uses two networks and calls `join` any number of times

A Rust function of the form `fn f<N: Network>(args, net0: &N, net1: &N, state0: &mut S, state1: &mut S)`.  As in
`Net/Join.lean` the actors are pairs of a party and one of its networks.  `MPC₂` is the code of the first actor of a
party; the second one (`worker`) runs the closures that `join` gives to it, one after the other, on the second network.

Models: `/repo/mpc-net/src/lib.rs:139-149` and the calling convention of
`/repo/mpc-core/src/protocols/rep3_ring/gadgets/sort.rs`.
-/

namespace Verif

open Config

/-- What the two actors of one party tell each other: a closure to run, that there are no more closures, the result of a
closure.  `J` is a type large enough for the results of all closures. -/
inductive Work (ι S M J : Type) : Type where
  | start (f : Prog ι M Err (J × S))
  | stop
  | done (y : Except Err (J × S))

/-- Run `p` and continue with what it returned, also if this is an error. -/
def Prog.finally {ι M E α γ : Type} : Prog ι M E α → (Except E α → Prog ι M E γ) → Prog ι M E γ
  | .ret a, k => k (.ok a)
  | .fail e, k => k (.error e)
  | .send t m p, k => .send t m (p.finally k)
  | .recv s p, k => .recv s fun m => (p m).finally k

/-- Continuation of `bind`. -/
def Prog.okThen {ι M E α β γ : Type} (f : α → Prog ι M E β) (k : Except E β → Prog ι M E γ) :
    Except E α → Prog ι M E γ
  | .ok a => (f a).finally k
  | .error e => k (.error e)

theorem Prog.finally_bind {ι M E α β γ : Type} (p : Prog ι M E α) (f : α → Prog ι M E β)
    (k : Except E β → Prog ι M E γ) : (p.bind f).finally k = p.finally (Prog.okThen f k) := by
  induction p with
  | ret a => rfl
  | fail e => rfl
  | send t m p ih => simp only [Prog.send_bind, Prog.finally, ih]
  | recv s p ih => simp only [Prog.recv_bind, Prog.finally, ih]

/-- Code of one party that uses two networks with one state each. -/
def MPC₂ (ι S M J α : Type) : Type :=
  ι → S → S → Prog (ι × Bool) (M ⊕ Work ι S M J) Err (α × S × S)

namespace MPC₂

variable {ι S M J α β X Y C : Type}

/-- `Ok(a)`. -/
def pure (a : α) : MPC₂ ι S M J α := fun _ s₀ s₁ => .ret (a, s₀, s₁)

/-- `let x = p?; f(x)`. -/
def bind (p : MPC₂ ι S M J α) (f : α → MPC₂ ι S M J β) : MPC₂ ι S M J β :=
  fun i s₀ s₁ => (p i s₀ s₁).bind fun (a, s₀, s₁) => f a i s₀ s₁

instance : Monad (MPC₂ ι S M J) where
  pure := MPC₂.pure
  bind := MPC₂.bind

/-- What follows code on the first network. -/
def afterFirst (s₁ : S) : Except Err (α × S) → Prog (ι × Bool) (M ⊕ Work ι S M J) Err (α × S × S)
  | .ok (a, s₀) => .ret (a, s₀, s₁)
  | .error e => .fail e

/-- A call that uses the first network and its state only. -/
def first (p : MPC ι S M Err α) : MPC₂ ι S M J α := fun i s₀ s₁ => (p i s₀).runOn false (afterFirst s₁)

/-- `eyre::bail!(msg)` -/
def bail (msg : String) : MPC₂ ι S M J α := fun _ _ _ => .fail (.err msg)

/-- Both closures have returned; the results are unwrapped with `?`, the first one first. -/
def joined [Codec J Y] : Except Err (X × S) → Except Err (J × S) →
    Prog (ι × Bool) (M ⊕ Work ι S M J) Err ((X × Y) × S × S)
  | .error e, _ => .fail e
  | .ok _, .error e => .fail e
  | .ok (x, s₀), .ok (j, s₁) =>
    match Codec.dec j with
    | some y => .ret ((x, y), s₀, s₁)
    | none => .fail (.panic "unreachable")

/-- The first actor has heard from the second one. -/
def joinDone [Codec J Y] (x : Except Err (X × S)) :
    M ⊕ Work ι S M J → Prog (ι × Bool) (M ⊕ Work ι S M J) Err ((X × Y) × S × S)
  | .inr (.done y) => joined x y
  | _ => .fail (.panic "unreachable")

/-- The second closure as it is given to the second actor. -/
def carry [Codec J Y] (f : MPC ι S M Err Y) (i : ι) (s : S) : Prog ι M Err (J × S) :=
  (f i s).bind fun y => .ret (Codec.enc y.1, y.2)

/-- `mpc_net::join(|| f₀(net0, state0), || f₁(net1, state1))` and the two `?` on its results.
`/repo/mpc-net/src/lib.rs:139-149` -/
def join [Codec J Y] (f₀ : MPC ι S M Err X) (f₁ : MPC ι S M Err Y) : MPC₂ ι S M J (X × Y) := fun i s₀ s₁ =>
  .send (i, true) (.inr (.start (carry f₁ i s₁)))
    ((f₀ i s₀).runOn false fun x => .recv (i, true) (joinDone x))

/-- The second actor: it runs up to `n` closures. -/
def worker (i : ι) : Nat → Prog (ι × Bool) (M ⊕ Work ι S M J) Err (Option C)
  | 0 => .recv (i, false) fun
    | .inr .stop => .ret none
    | _ => .fail (.panic "unreachable")
  | n + 1 => .recv (i, false) fun
    | .inr (.start f) => f.runOn true fun y => .send (i, false) (.inr (.done y)) (worker i n)
    | .inr .stop => .ret none
    | _ => .fail (.panic "unreachable")

/-- The two actors of every party, for a call that uses `join` at most `n` times. -/
def actors (n : Nat) (p : ι → MPC₂ ι S M J α) (st₀ st₁ : ι → S) :
    ι × Bool → Prog (ι × Bool) (M ⊕ Work ι S M J) Err (Option (α × S × S))
  | (i, false) => (p i i (st₀ i) (st₁ i)).finally fun r => .send (i, true) (.inr .stop) (.ofExcept (r.map some))
  | (i, true) => worker i n

theorem bind_apply (p : MPC₂ ι S M J α) (f : α → MPC₂ ι S M J β) (i : ι) (s₀ s₁ : S) :
    (p >>= f) i s₀ s₁ = (p i s₀ s₁).bind fun x => f x.1 i x.2.1 x.2.2 := rfl

instance : LawfulMonad (MPC₂ ι S M J) := LawfulMonad.mk'
  (id_map := fun x => by
    funext i s₀ s₁
    show (x i s₀ s₁).bind (fun (a, s₀, s₁) => .ret (a, s₀, s₁)) = x i s₀ s₁
    exact Prog.bind_ret _)
  (pure_bind := fun _ _ => rfl)
  (bind_assoc := fun x f g => by
    funext i s₀ s₁
    show ((x i s₀ s₁).bind _).bind _ = (x i s₀ s₁).bind _
    rw [Prog.bind_assoc]
    rfl)

end MPC₂

/-- In every execution of all actors all parties return `Ok`, and the returned values and both new states satisfy `Q`.
This is the form used in property statements. -/
def EnsuresTwo {ι S M J α : Type} [DecidableEq ι] (p : ι → MPC₂ ι S M J α) (st₀ st₁ : ι → S)
    (Q : (ι → α) → (ι → S) → (ι → S) → Prop) : Prop :=
  ∃ n, Ensures₂ (MPC₂.actors n p st₀ st₁) Q

/-- In every execution of all actors every party returns the error `e`.  This is the form used in property statements. -/
def FailsTwo {ι S M J α : Type} [DecidableEq ι] (p : ι → MPC₂ ι S M J α) (st₀ st₁ : ι → S) (e : Err) : Prop :=
  ∃ n, Fails₂ (MPC₂.actors n p st₀ st₁) (fun e' => e' = e)

section Rules

open MPC₂

variable {ι S M J α β X Y C : Type} [DecidableEq ι]

/-- Proof form of `EnsuresTwo`. -/
def Spec₂ (p : ι → MPC₂ ι S M J α) (st₀ st₁ : ι → S) (Q : (ι → α) → (ι → S) → (ι → S) → Prop) : Prop :=
  ∃ (n : Nat) (r : ι → α) (s₀ s₁ : ι → S), Q r s₀ s₁ ∧
    ∀ (C : Type) (k : ι → Except Err (α × S × S) → Prog (ι × Bool) (M ⊕ Work ι S M J) Err (Option C)) (m : Nat),
      Phase (two (fun i => (p i i (st₀ i) (st₁ i)).finally (k i)) (fun i => worker i (n + m)))
        (two (fun i => k i (.ok (r i, s₀ i, s₁ i))) (fun i => worker i m))

theorem Spec₂.mono {p : ι → MPC₂ ι S M J α} {st₀ st₁ : ι → S} {Q Q' : (ι → α) → (ι → S) → (ι → S) → Prop}
    (h : Spec₂ p st₀ st₁ Q) (hq : ∀ r s₀ s₁, Q r s₀ s₁ → Q' r s₀ s₁) : Spec₂ p st₀ st₁ Q' := by
  obtain ⟨n, r, s₀, s₁, hr, h⟩ := h
  exact ⟨n, r, s₀, s₁, hq _ _ _ hr, h⟩

theorem Spec₂.pure {v : ι → α} {st₀ st₁ : ι → S} {Q : (ι → α) → (ι → S) → (ι → S) → Prop} (h : Q v st₀ st₁) :
    Spec₂ (M := M) (J := J) (fun i => Pure.pure (v i)) st₀ st₁ Q := by
  refine ⟨0, v, st₀, st₁, h, fun C k m L => ⟨0, L, ?_⟩⟩
  rw [Nat.zero_add]
  exact .refl _

theorem Spec₂.bind {p : ι → MPC₂ ι S M J α} {f : ι → α → MPC₂ ι S M J β} {st₀ st₁ : ι → S}
    {Q₁ : (ι → α) → (ι → S) → (ι → S) → Prop} {Q : (ι → β) → (ι → S) → (ι → S) → Prop}
    (h : Spec₂ p st₀ st₁ Q₁) (h' : ∀ v s₀ s₁, Q₁ v s₀ s₁ → Spec₂ (fun i => f i (v i)) s₀ s₁ Q) :
    Spec₂ (fun i => p i >>= f i) st₀ st₁ Q := by
  obtain ⟨n, r, s₀, s₁, hr, h⟩ := h
  obtain ⟨n', r', s₀', s₁', hr', h'⟩ := h' _ _ _ hr
  refine ⟨n + n', r', s₀', s₁', hr', fun C k m => ?_⟩
  simp only [MPC₂.bind_apply, Prog.finally_bind, Nat.add_assoc]
  refine (h C (fun i => Prog.okThen (fun x => f i x.1 i x.2.1 x.2.2) (k i)) (n' + m)).then ?_ (h' C k m)
  rintro ⟨i, b⟩
  cases b <;> rfl

theorem runOn_finally {p : Prog ι M Err α} {b : Bool} {C : Type}
    (k : Except Err α → Prog (ι × Bool) (M ⊕ J) Err β) (k' : Except Err β → Prog (ι × Bool) (M ⊕ J) Err C) :
    (p.runOn b k).finally k' = p.runOn b fun r => (k r).finally k' := by
  induction p with
  | ret a => rfl
  | fail e => rfl
  | send t m p ih => simp only [Prog.runOn, Prog.finally, ih]
  | recv s p ih =>
    simp only [Prog.runOn, Prog.finally]
    congr 1
    funext m
    cases m with
    | inl m => exact ih m
    | inr m => rfl

theorem Spec₂.first {p : ι → MPC ι S M Err α} {st₀ st₁ : ι → S} {Q : (ι → α) → (ι → S) → (ι → S) → Prop}
    (h : Spec p st₀ fun r s₀ => Q r s₀ st₁) : Spec₂ (J := J) (fun i => MPC₂.first (p i)) st₀ st₁ Q := by
  obtain ⟨v, l, hv, hQ⟩ := h
  refine ⟨0, _, _, _, hQ, fun C k m => ?_⟩
  rw [Nat.zero_add]
  have p1 := Phase.par (J := Work ι S M J) (γ := Option C)
    (k₀ := fun i r => (afterFirst (st₁ i) r).finally (k i))
    (k₁ := fun i (_ : Except Err Unit) => worker i m) hv (runs_ret (fun _ => ()))
  refine Phase.congr ?_ ?_ p1
  · rintro ⟨i, b⟩
    cases b
    · exact runOn_finally _ _
    · rfl
  · rintro ⟨i, b⟩
    cases b <;> rfl

theorem Spec₂.join [Fintype ι] [Codec J Y] {f₀ : ι → MPC ι S M Err X} {f₁ : ι → MPC ι S M Err Y} {st₀ st₁ : ι → S}
    {Q : (ι → X × Y) → (ι → S) → (ι → S) → Prop}
    (h : Spec f₀ st₀ fun x s₀ => Spec f₁ st₁ fun y s₁ => Q (fun i => (x i, y i)) s₀ s₁) :
    Spec₂ (J := J) (fun i => MPC₂.join (f₀ i) (f₁ i)) st₀ st₁ Q := by
  obtain ⟨x, l, hx, y, l', hy, hQ⟩ := h
  refine ⟨1, _, _, _, hQ, fun C k m => ?_⟩
  rw [Nat.add_comm]
  have hy' : Runs (fun i => carry (J := J) (f₁ i) i (st₁ i)) (fun i => .ok (Codec.enc (y i).1, (y i).2)) _ :=
    hy.bind (k := fun i (c : Y × S) => .ret (Codec.enc c.1, c.2)) (runs_ret _)
  have p1 := Phase.handoff (M := M) (γ := Option C)
    (fun i => (.inr (.start (carry (f₁ i) i (st₁ i))) : M ⊕ Work ι S M J)) false
    (fun i => ((f₀ i i (st₀ i)).runOn false fun x => .recv (i, true) (MPC₂.joinDone (Y := Y) x)).finally (k i))
    (fun i => fun
      | .inr (.start f) => f.runOn true fun y => .send (i, false) (.inr (.done y)) (worker i m)
      | .inr .stop => .ret none
      | _ => .fail (.panic "unreachable"))
  have p2 := Phase.par (J := Work ι S M J) (γ := Option C)
    (k₀ := fun i x => (Prog.recv (i, true) (MPC₂.joinDone (Y := Y) x)).finally (k i))
    (k₁ := fun i y => .send (i, false) (.inr (.done y)) (worker i m)) hx hy'
  have p3 := Phase.handoff (M := M) (γ := Option C)
    (fun i => (.inr (.done (.ok (Codec.enc (y i).1, (y i).2))) : M ⊕ Work ι S M J)) true
    (fun i => worker i m) (fun i z => (MPC₂.joinDone (Y := Y) (.ok (x i)) z).finally (k i))
  refine Phase.congr ?_ ?_ (p1.then ?_ (p2.then ?_ p3))
  · rintro ⟨i, b⟩
    cases b <;> rfl
  · rintro ⟨i, b⟩
    cases b
    · simp [MPC₂.joinDone, joined, two, Prog.finally]
    · rfl
  · rintro ⟨i, b⟩
    cases b
    · exact runOn_finally _ _
    · rfl
  · rintro ⟨i, b⟩
    cases b <;> rfl

theorem Spec₂.ensures [Fintype ι] {p : ι → MPC₂ ι S M J α} {st₀ st₁ : ι → S} {Q : (ι → α) → (ι → S) → (ι → S) → Prop}
    (h : Spec₂ p st₀ st₁ Q) : EnsuresTwo p st₀ st₁ Q := by
  obtain ⟨n, r, s₀, s₁, hQ, h⟩ := h
  refine ⟨n, ?_⟩
  have p1 := h (α × S × S) (fun i r => .send (i, true) (.inr .stop) (.ofExcept (r.map some))) 0
  have p2 := Phase.handoff (M := M) (γ := Option (α × S × S)) (fun _ => (.inr .stop : M ⊕ Work ι S M J)) false
    (fun i => .ret (some (r i, s₀ i, s₁ i))) (fun i => fun
      | .inr .stop => .ret none
      | _ => .fail (.panic "unreachable"))
  have p3 : Phase (actors n p st₀ st₁) (fun z => .ofExcept (.ok (if z.2 then none else some (r z.1, s₀ z.1, s₁ z.1)))) := by
    refine Phase.congr ?_ ?_ (p1.then ?_ p2) <;> (rintro ⟨i, b⟩; cases b <;> rfl)
  obtain ⟨l, hl⟩ := p3.runs
  exact hl.allRuns ⟨_, fun _ => rfl, r, s₀, s₁, fun _ => rfl, hQ⟩

/-- Code that fails at once. -/
theorem failsTwo [Fintype ι] {p : ι → MPC₂ ι S M J α} {st₀ st₁ : ι → S} {e : Err}
    (h : ∀ i, p i i (st₀ i) (st₁ i) = .fail e) : FailsTwo p st₀ st₁ e := by
  refine ⟨0, ?_⟩
  have p2 := Phase.handoff (ι := ι) (M := M) (γ := Option (α × S × S)) (fun _ => (.inr .stop : M ⊕ Work ι S M J)) false
    (fun _ => .fail e) (fun i => fun
      | .inr .stop => .ret none
      | _ => .fail (.panic "unreachable"))
  have p3 : Phase (actors 0 p st₀ st₁) (fun z => .ofExcept (if z.2 then .ok none else .error e)) := by
    refine Phase.congr ?_ ?_ p2
    · rintro ⟨i, b⟩
      cases b
      · simp only [actors, h, Prog.finally]; rfl
      · rfl
    · rintro ⟨i, b⟩
      cases b <;> rfl
  obtain ⟨l, hl⟩ := p3.runs
  exact hl.allRuns fun i => ⟨e, rfl, rfl⟩

/-- A loop over a public list. -/
theorem Spec₂.foldlM {A : Type} {f : ι → α → A → MPC₂ ι S M J α} {l : List A} {I : Nat → (ι → α) → (ι → S) → (ι → S) → Prop}
    (h : ∀ (k : Nat) (a : A), l[k]? = some a → ∀ v s₀ s₁, I k v s₀ s₁ → Spec₂ (fun i => f i (v i) a) s₀ s₁ (I (k + 1)))
    {v : ι → α} {st₀ st₁ : ι → S} (hI : I 0 v st₀ st₁) :
    Spec₂ (fun i => l.foldlM (f i) (v i)) st₀ st₁ (I l.length) := by
  induction l generalizing I v st₀ st₁ with
  | nil => exact Spec₂.pure hI
  | cons a l ih =>
    simp only [List.foldlM_cons]
    refine Spec₂.bind (h 0 a rfl v st₀ st₁ hI) fun v s₀ s₁ hv => ?_
    exact ih (I := fun k => I (k + 1)) (fun k b hb => h (k + 1) b (by simpa using hb)) hv

end Rules

end Verif
