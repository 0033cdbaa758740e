import Verif.Net.Join
import Verif.Rep3.ArithLemmas
import Verif.Props.Demo

/-!
# Independence of the schedule: C17, concurrent closures: C61
-/

namespace Verif.Props

open Config PartyID Rep3 Demo

variable {ι M E α : Type} [DecidableEq ι]

/-- C17: any set of parties, any deterministic programs. If *some* interleaving of `n` actions lets
every party return (`r i` is what party `i` returns, `l i` the sequence of messages it received, and
nothing stays in flight), then *every* interleaving makes at most `n` actions, can at every point
be continued to the same end (no deadlock), and when it cannot be continued it has reached that same
end after exactly `n` actions. -/
theorem C17_schedule_independent (p : ι → Prog ι M E α) (n : Nat) (r : ι → Except E α)
    (l : ι → List (ι × M)) (h : Steps n (Config.init p) (Config.final r l)) :
    ∀ m d, Steps m (Config.init p) d →
      m ≤ n ∧ Steps (n - m) d (Config.final r l) ∧ (Stuck d → d = Config.final r l ∧ m = n) := by
  intro m d hd
  obtain ⟨k, hk, hk'⟩ := descent h (final_stuck r l) hd
  refine ⟨by omega, by rwa [show n - m = k by omega], fun hs => ?_⟩
  cases hk' with
  | refl => exact ⟨rfl, by omega⟩
  | head hs' _ =>
    obtain ⟨i, hi⟩ := hs'
    rw [hs i] at hi
    cases hi

/-- C17: the same for runs that end with some party blocked: a deadlock in one interleaving is the
same deadlock in every interleaving. -/
theorem C17_deadlock_independent (p : ι → Prog ι M E α) (n : Nat) (e : Config ι M E α)
    (he : Stuck e) (h : Steps n (Config.init p) e) :
    ∀ m d, Steps m (Config.init p) d → m ≤ n ∧ (Stuck d → d = e ∧ m = n) := by
  intro m d hd
  obtain ⟨k, hk, hk'⟩ := descent h he hd
  refine ⟨by omega, fun hs => ?_⟩
  cases hk' with
  | refl => exact ⟨rfl, by omega⟩
  | head hs' _ =>
    obtain ⟨i, hi⟩ := hs'
    rw [hs i] at hi
    cases hi

/-- C17 for a call of the library: two complete executions of the three parties, under whatever
schedules, give the same results, the same new states and the same received messages. -/
theorem C17_two_runs_agree {S : Type} (f : ι → MPC ι S M E α) (st : ι → S) (n n' : Nat)
    (r r' : ι → Except E (α × S)) (l l' : ι → List (ι × M))
    (h : Steps n (Config.init fun i => f i i (st i)) (Config.final r l))
    (h' : Steps n' (Config.init fun i => f i i (st i)) (Config.final r' l')) :
    r = r' ∧ l = l' ∧ n = n' := by
  obtain ⟨-, -, h1⟩ := C17_schedule_independent _ n r l h n' _ h'
  obtain ⟨h2, h3⟩ := h1 (final_stuck _ _)
  obtain ⟨h4, h5⟩ := Final.inj h2
  exact ⟨h4.symm, h5.symm, h3.symm⟩

/-- The hypothesis is met, for instance, by a multiplication: a complete execution exists. -/
example : ∃ n r l, Steps n
    (Config.init fun i => mul (M := Msg) (three7 i) (five7 i) i (states i)) (Config.final r l) := by
  obtain ⟨v, l, ⟨n, h⟩, -⟩ := spec_mul (M := Msg) isShare_three7 isShare_five7 corr_states
  exact ⟨n, _, l, h⟩

/-! ## C61

`forkJoinM` is a function that runs `pre`, then two closures concurrently on two networks with their own states
(`mpc_net::join`), then `post` with the results.  Its actors are the two threads of every party; `Ensures₂` and
`Fails₂` speak about every interleaving of all of them. -/

section Join

variable {ι S M A X Y C : Type} [DecidableEq ι] [Fintype ι] {pre : ι → MPC ι S M Err A}
  {f₀ : ι → A → MPC ι S M Err X} {f₁ : ι → A → MPC ι S M Err Y} {post : ι → A → X → Y → MPC ι S M Err C}
  {st₀ st₁ : ι → S}

/-- C61: if `pre`, the first closure, the second closure (from the forked state) and `post`, each run alone,
deliver results satisfying `Q`, so does the concurrent execution, in every interleaving. -/
theorem C61_join {Q : (ι → C) → (ι → S) → (ι → S) → Prop}
    (h : Ensures pre st₀ fun a s₀ => Ensures (fun i => f₀ i (a i)) s₀ fun x s₀ =>
      Ensures (fun i => f₁ i (a i)) st₁ fun y s₁ =>
        Ensures (fun i => post i (a i) (x i) (y i)) s₀ fun c s₀ => Q c s₀ s₁) :
    Ensures₂ (forkJoinM pre f₀ f₁ post st₀ st₁) Q := by
  simp only [ensures_iff] at h
  exact Spec.forkJoin h

/-- C61: if the first closure fails at every party and the second ends, with whatever result, every party's call fails with
the error of the first closure: nobody hangs and nobody continues. -/
theorem C61_join_fails {P : Err → Prop}
    (h : Ensures pre st₀ fun a s₀ =>
      EnsuresE (fun i => f₀ i (a i)) s₀ (fun r => ∀ i, ∃ e, r i = .error e ∧ P e) ∧
      EnsuresE (fun i => f₁ i (a i)) st₁ (fun _ => True)) :
    Fails₂ (forkJoinM pre f₀ f₁ post st₀ st₁) P := by
  simp only [ensures_iff, ensuresE_iff] at h
  exact SpecE.forkJoin_first h

end Join

/-- Two multiplications at the same time, then the product of the results: `(3 * 5) * (5 * 3)` modulo `7`. -/
example : Ensures₂ (forkJoinM (M := Msg) (fun _ => pure ()) (fun i _ => mul (three7 i) (five7 i))
      (fun i _ => mul (five7 i) (three7 i)) (fun _ _ x y => mul x y) states states) fun r s₀ s₁ =>
    IsShare r (1 : F7) ∧ Corr .direct s₀ ∧ Corr .direct s₁ := by
  refine C61_join ?_
  simp only [ensures_iff]
  refine Spec.pure ?_
  refine (spec_mul isShare_three7 isShare_five7 corr_states).mono ?_
  rintro x s₀ ⟨hx, hs₀⟩
  refine (spec_mul isShare_five7 isShare_three7 corr_states).mono ?_
  rintro y s₁ ⟨hy, hs₁⟩
  refine (spec_mul hx hy hs₀).mono ?_
  rintro c s₀ ⟨hc, hs₀⟩
  exact ⟨hc, hs₀, hs₁⟩

end Verif.Props
