import Verif.Net.Two

/-!
# Code on two networks that can fail for all parties together
-/

namespace Verif

open Config MPC₂

variable {ι S M J α β X Y C : Type} [DecidableEq ι]

/-- In every execution of all actors either all parties return `Ok`, and the returned values and both new states satisfy
`Q`; or `bad` holds and all parties return an error.  This is the form used in property statements. -/
def EnsuresTwoOr (bad : Prop) (p : ι → MPC₂ ι S M J α) (st₀ st₁ : ι → S)
    (Q : (ι → α) → (ι → S) → (ι → S) → Prop) : Prop :=
  EnsuresTwo p st₀ st₁ Q ∨ (bad ∧ ∃ n, Fails₂ (MPC₂.actors n p st₀ st₁) fun _ => True)

theorem EnsuresTwoOr.ensures {p : ι → MPC₂ ι S M J α} {st₀ st₁ : ι → S} {Q : (ι → α) → (ι → S) → (ι → S) → Prop}
    (h : EnsuresTwoOr False p st₀ st₁ Q) : EnsuresTwo p st₀ st₁ Q := by
  rcases h with h | h
  · exact h
  · exact h.1.elim

/-- Proof form of `EnsuresTwoOr`: the outcome of the call, whatever it is. -/
def Spec₂E (p : ι → MPC₂ ι S M J α) (st₀ st₁ : ι → S) (Q : (ι → Except Err (α × S × S)) → Prop) : Prop :=
  ∃ (n : Nat) (r : ι → Except Err (α × S × S)), Q r ∧
    ∀ (C : Type) (k : ι → Except Err (α × S × S) → Prog (ι × Bool) (M ⊕ Work ι S M J) Err (Option C)) (m : Nat),
      Phase (two (fun i => (p i i (st₀ i) (st₁ i)).finally (k i)) (fun i => worker i (n + m)))
        (two (fun i => k i (r i)) (fun i => worker i m))

/-- All parties return `Ok`, or all fail and `bad` holds. -/
def AllOrNone₂ (bad : Prop) (Q : (ι → α) → (ι → S) → (ι → S) → Prop) (r : ι → Except Err (α × S × S)) : Prop :=
  (bad ∧ ∃ e : ι → Err, r = fun i => .error (e i)) ∨
    ∃ v s₀ s₁, r = (fun i => .ok (v i, s₀ i, s₁ i)) ∧ Q v s₀ s₁

/-- `Spec₂` with a common failure. -/
def Spec₂F (bad : Prop) (p : ι → MPC₂ ι S M J α) (st₀ st₁ : ι → S) (Q : (ι → α) → (ι → S) → (ι → S) → Prop) : Prop :=
  Spec₂E p st₀ st₁ (AllOrNone₂ bad Q)

variable {bad : Prop}

theorem Spec₂F.mono {p : ι → MPC₂ ι S M J α} {st₀ st₁ : ι → S} {Q Q' : (ι → α) → (ι → S) → (ι → S) → Prop}
    (h : Spec₂F bad p st₀ st₁ Q) (hq : ∀ r s₀ s₁, Q r s₀ s₁ → Q' r s₀ s₁) : Spec₂F bad p st₀ st₁ Q' := by
  obtain ⟨n, r, hr, h⟩ := h
  refine ⟨n, r, ?_, h⟩
  rcases hr with hr | ⟨v, s₀, s₁, hr, hQ⟩
  · exact .inl hr
  · exact .inr ⟨v, s₀, s₁, hr, hq _ _ _ hQ⟩

theorem Spec₂.specF {p : ι → MPC₂ ι S M J α} {st₀ st₁ : ι → S} {Q : (ι → α) → (ι → S) → (ι → S) → Prop}
    (h : Spec₂ p st₀ st₁ Q) : Spec₂F bad p st₀ st₁ Q := by
  obtain ⟨n, r, s₀, s₁, hr, h⟩ := h
  exact ⟨n, _, .inr ⟨r, s₀, s₁, rfl, hr⟩, h⟩

theorem Spec₂F.pure {v : ι → α} {st₀ st₁ : ι → S} {Q : (ι → α) → (ι → S) → (ι → S) → Prop} (h : Q v st₀ st₁) :
    Spec₂F (M := M) (J := J) bad (fun i => Pure.pure (v i)) st₀ st₁ Q := (Spec₂.pure h).specF

theorem Spec₂F.bind {p : ι → MPC₂ ι S M J α} {f : ι → α → MPC₂ ι S M J β} {st₀ st₁ : ι → S}
    {Q₁ : (ι → α) → (ι → S) → (ι → S) → Prop} {Q : (ι → β) → (ι → S) → (ι → S) → Prop}
    (h : Spec₂F bad p st₀ st₁ Q₁) (h' : ∀ v s₀ s₁, Q₁ v s₀ s₁ → Spec₂F bad (fun i => f i (v i)) s₀ s₁ Q) :
    Spec₂F bad (fun i => p i >>= f i) st₀ st₁ Q := by
  obtain ⟨n, r, hr, h⟩ := h
  rcases hr with ⟨hb, e, rfl⟩ | ⟨v, s₀, s₁, rfl, hQ⟩
  · refine ⟨n, _, .inl ⟨hb, e, rfl⟩, fun C k m => ?_⟩
    simp only [MPC₂.bind_apply, Prog.finally_bind]
    exact h C (fun i => Prog.okThen (fun x => f i x.1 i x.2.1 x.2.2) (k i)) m
  · obtain ⟨n', r', hr', h'⟩ := h' _ _ _ hQ
    refine ⟨n + n', r', hr', fun C k m => ?_⟩
    simp only [MPC₂.bind_apply, Prog.finally_bind, Nat.add_assoc]
    refine (h C (fun i => Prog.okThen (fun x => f i x.1 i x.2.1 x.2.2) (k i)) (n' + m)).then ?_ (h' C k m)
    rintro ⟨i, b⟩
    cases b <;> rfl

/-- A call on the first network that fails for all parties or for none. -/
theorem Spec₂F.first {p : ι → MPC ι S M Err α} {st₀ st₁ : ι → S} {Q : (ι → α) → (ι → S) → (ι → S) → Prop}
    (h : SpecE p st₀ (AllOrNone bad fun r s₀ => Q r s₀ st₁)) :
    Spec₂F (J := J) bad (fun i => MPC₂.first (p i)) st₀ st₁ Q := by
  obtain ⟨r, l, hr, hQ⟩ := h
  have key : ∀ (C : Type) (k : ι → Except Err (α × S × S) → Prog (ι × Bool) (M ⊕ Work ι S M J) Err (Option C)) (m : Nat),
      Phase (two (fun i => (MPC₂.first (J := J) (p i) i (st₀ i) (st₁ i)).finally (k i)) (fun i => worker i (0 + m)))
        (two (fun i => (afterFirst (st₁ i) (r i)).finally (k i)) (fun i => worker i m)) := by
    intro C k m
    rw [Nat.zero_add]
    have p1 := Phase.par (J := Work ι S M J) (γ := Option C)
      (k₀ := fun i r => (afterFirst (st₁ i) r).finally (k i))
      (k₁ := fun i (_ : Except Err Unit) => worker i m) hr (runs_ret (fun _ => ()))
    refine Phase.congr ?_ ?_ p1
    · rintro ⟨i, b⟩
      cases b
      · exact runOn_finally _ _
      · rfl
    · rintro ⟨i, b⟩
      cases b <;> rfl
  rcases hQ with ⟨e, he, hb⟩ | ⟨v, s₀, hv, hQ⟩
  · obtain rfl : r = fun _ => .error (.err e) := funext he
    exact ⟨0, _, .inl ⟨hb, fun _ => .err e, rfl⟩, key⟩
  · obtain rfl : r = fun i => .ok (v i, s₀ i) := funext hv
    exact ⟨0, _, .inr ⟨v, s₀, st₁, rfl, hQ⟩, key⟩

theorem Spec₂F.ensures [Fintype ι] {p : ι → MPC₂ ι S M J α} {st₀ st₁ : ι → S}
    {Q : (ι → α) → (ι → S) → (ι → S) → Prop} (h : Spec₂F bad p st₀ st₁ Q) : EnsuresTwoOr bad p st₀ st₁ Q := by
  obtain ⟨n, r, hr, h⟩ := h
  rcases hr with ⟨hb, e, rfl⟩ | ⟨v, s₀, s₁, rfl, hQ⟩
  · right
    refine ⟨hb, n, ?_⟩
    have p1 := h (α × S × S) (fun i r => .send (i, true) (.inr .stop) (.ofExcept (r.map some))) 0
    have p2 := Phase.handoff (M := M) (γ := Option (α × S × S)) (fun _ => (.inr .stop : M ⊕ Work ι S M J)) false
      (fun i => .fail (e i)) (fun i => fun
        | .inr .stop => .ret none
        | _ => .fail (.panic "unreachable"))
    have p3 : Phase (actors n p st₀ st₁) (fun z => .ofExcept (if z.2 then .ok none else .error (e z.1))) := by
      refine Phase.congr ?_ ?_ (p1.then ?_ p2) <;> (rintro ⟨i, b⟩; cases b <;> rfl)
    obtain ⟨l, hl⟩ := p3.runs
    exact hl.allRuns fun i => ⟨e i, rfl, trivial⟩
  · left
    exact Spec₂.ensures ⟨n, v, s₀, s₁, hQ, h⟩

end Verif
