import Verif.Net.Many

/-!
# Proof rules for code that uses several networks
-/

namespace Verif

open Config MPCₙ

variable {k : Nat} {ι S M J α β γ C : Type} [DecidableEq ι]

/-- All parties return `Ok`, or all fail and `bad` holds. -/
def AllOrNoneₙ (bad : Prop) (Q : (ι → α) → (ι → S) → Prop) (r : ι → Except Err (α × S)) : Prop :=
  (bad ∧ ∃ e : ι → String, r = fun i => .error (.err (e i))) ∨ ∃ v s, r = (fun i => .ok (v i, s i)) ∧ Q v s

/-- Proof form of `EnsuresManyOr`. -/
def Specₙ (bad : Prop) (p : ι → MPCₙ k ι S M J α) (st : ι → S) (Q : (ι → α) → (ι → S) → Prop) : Prop :=
  ∃ (n : Nat) (r : ι → Except Err (α × S)), AllOrNoneₙ bad Q r ∧
    ∀ (C : Type) (K : ι → Except Err (α × S) → Prog (ι × Fin (k + 1)) (M ⊕ Job ι M J) Err (Option C)) (m : Nat),
      Phase (many (fun i => (p i i (st i)).finally (K i)) (fun i c => worker i c (n + m)))
        (many (fun i => K i (r i)) (fun i c => worker i c m))

variable {bad : Prop}

theorem Specₙ.mono {p : ι → MPCₙ k ι S M J α} {st : ι → S} {Q Q' : (ι → α) → (ι → S) → Prop}
    (h : Specₙ bad p st Q) (hq : ∀ r s, Q r s → Q' r s) : Specₙ bad p st Q' := by
  obtain ⟨n, r, hr, h⟩ := h
  refine ⟨n, r, ?_, h⟩
  rcases hr with hr | ⟨v, s, hr, hQ⟩
  · exact .inl hr
  · exact .inr ⟨v, s, hr, hq _ _ hQ⟩

theorem Specₙ.pure {v : ι → α} {st : ι → S} {Q : (ι → α) → (ι → S) → Prop} (h : Q v st) :
    Specₙ (k := k) (M := M) (J := J) bad (fun i => Pure.pure (v i)) st Q := by
  refine ⟨0, _, .inr ⟨v, st, rfl, h⟩, fun C K m L => ⟨0, L, ?_⟩⟩
  rw [Nat.zero_add]
  exact .refl _

theorem Specₙ.bind {p : ι → MPCₙ k ι S M J α} {f : ι → α → MPCₙ k ι S M J β} {st : ι → S}
    {Q₁ : (ι → α) → (ι → S) → Prop} {Q : (ι → β) → (ι → S) → Prop}
    (h : Specₙ bad p st Q₁) (h' : ∀ v s, Q₁ v s → Specₙ bad (fun i => f i (v i)) s Q) :
    Specₙ bad (fun i => p i >>= f i) st Q := by
  obtain ⟨n, r, hr, h⟩ := h
  rcases hr with ⟨hb, e, rfl⟩ | ⟨v, s, rfl, hQ⟩
  · refine ⟨n, _, .inl ⟨hb, e, rfl⟩, fun C K m => ?_⟩
    simp only [MPCₙ.bind_apply, Prog.finally_bind]
    exact h C (fun i => Prog.okThen (fun x => f i x.1 i x.2) (K i)) m
  · obtain ⟨n', r', hr', h'⟩ := h' _ _ hQ
    refine ⟨n + n', r', hr', fun C K m => ?_⟩
    simp only [MPCₙ.bind_apply, Prog.finally_bind, Nat.add_assoc]
    refine (h C (fun i => Prog.okThen (fun x => f i x.1 i x.2) (K i)) (n' + m)).then ?_ (h' C K m)
    rintro ⟨i, c⟩
    rfl

theorem runAt_finally {κ J : Type} {p : Prog ι M Err α} {c : κ} {C : Type}
    (k : Except Err α → Prog (ι × κ) (M ⊕ J) Err β) (k' : Except Err β → Prog (ι × κ) (M ⊕ J) Err C) :
    (p.runAt c k).finally k' = p.runAt c fun r => (k r).finally k' := by
  induction p with
  | ret a => rfl
  | fail e => rfl
  | send t m p ih => simp only [Prog.runAt, Prog.finally, ih]
  | recv s p ih =>
    simp only [Prog.runAt, Prog.finally]
    congr 1
    funext m
    cases m with
    | inl m => exact ih m
    | inr m => rfl

theorem sendsThen_finally {ι M E α : Type} {ms : List (ι × M)} {p : Prog ι M E α} {C : Type}
    (k : Except E α → Prog ι M E C) : (sendsThen ms p).finally k = sendsThen ms (p.finally k) := by
  induction ms with
  | nil => rfl
  | cons m ms ih => simp only [sendsThen, Prog.finally, ih]

theorem recvsThen_finally {ι M E α : Type} {ss : List ι} {p : List M → Prog ι M E α} {C : Type}
    (k : Except E α → Prog ι M E C) : (recvsThen ss p).finally k = recvsThen ss fun ms => (p ms).finally k := by
  induction ss generalizing p with
  | nil => rfl
  | cons s ss ih => simp only [recvsThen, Prog.finally, ih]

theorem ofExcept_finally {ι M E α : Type} {r : Except E α} {C : Type} (k : Except E α → Prog ι M E C) :
    (Prog.ofExcept r).finally k = k r := by cases r <;> rfl

/-- A call on the first network that fails for all parties or for none. -/
theorem Specₙ.first {p : ι → MPC ι S M Err α} {st : ι → S} {Q : (ι → α) → (ι → S) → Prop}
    (h : SpecE p st (AllOrNone bad Q)) : Specₙ (k := k) (J := J) bad (fun i => MPCₙ.first (p i)) st Q := by
  obtain ⟨r, l, hr, hQ⟩ := h
  have key : ∀ (C : Type) (K : ι → Except Err (α × S) → Prog (ι × Fin (k + 1)) (M ⊕ Job ι M J) Err (Option C)) (m : Nat),
      Phase (many (fun i => (MPCₙ.first (k := k) (J := J) (p i) i (st i)).finally (K i)) (fun i c => worker i c (0 + m)))
        (many (fun i => K i (r i)) (fun i c => worker i c m)) := by
    intro C K m
    rw [Nat.zero_add]
    have p1 := Phase.at (c := (0 : Fin (k + 1))) (J := Job ι M J) hr (γ := Option C) K (fun x => worker x.1 x.2 m)
    refine Phase.congr ?_ (fun _ => rfl) p1
    rintro ⟨i, c⟩
    by_cases hc : c = 0
    · simp only [many, hc, if_true, MPCₙ.first, runAt_finally]
      congr 1
      funext r
      exact ofExcept_finally _
    · simp [many, hc]
  rcases hQ with ⟨e, he, hb⟩ | ⟨v, s, hv, hQ⟩
  · obtain rfl : r = fun _ => .error (.err e) := funext he
    exact ⟨0, _, .inl ⟨hb, fun _ => e, rfl⟩, key⟩
  · obtain rfl : r = fun i => .ok (v i, s i) := funext hv
    exact ⟨0, _, .inr ⟨v, s, rfl, hQ⟩, key⟩

/-- The closures on all networks have outcomes `r`. -/
theorem Specₙ.join' [Fintype ι] {fs : ι → Fin (k + 1) → Prog ι M Err J} {st : ι → S} {Q : (ι → List J) → (ι → S) → Prop}
    {r : Fin (k + 1) → ι → Except Err J} (hr : ∀ c, ∃ l, Runs (fun i => fs i c) (r c) l)
    (hQ : AllOrNoneₙ bad Q fun i => (unwrap ((List.finRange (k + 1)).map fun c => r c i)).map (·, st i)) :
    Specₙ bad (fun i => MPCₙ.join (fs i)) st Q := by
  refine ⟨1, _, hQ, fun C K m => ?_⟩
  rw [Nat.add_comm 1 m]
  have p1 := Phase.scatter (M := M) (γ := Option C)
    (fun i c => (.inr (.start (fs i c)) : M ⊕ Job ι M J))
    (fun i => ((fs i 0).runAt 0 fun x => recvsThen ((others k).map fun c => (i, c)) fun ms =>
      K i ((unwrap (x :: results ms)).map (·, st i))))
    (fun i c => fun
      | .inr (.start f) => f.runAt c fun y => .send (i, 0) (.inr (.done y)) (worker i c m)
      | .inr .stop => .ret none
      | _ => .fail (.panic "unreachable"))
  have p2 := Phase.all (J := Job ι M J) (γ := Option C) (p := fun c i => fs i c) hr
    (fun c i => if c = 0 then fun x => recvsThen ((others k).map fun c => (i, c)) fun ms =>
        K i ((unwrap (x :: results ms)).map (·, st i))
      else fun y => .send (i, 0) (.inr (.done y)) (worker i c m))
  have p3 := Phase.gather (M := M) (γ := Option C) (fun i c => (.inr (.done (r c i)) : M ⊕ Job ι M J))
    (fun i c => worker i c m) (fun i ms => K i ((unwrap (r 0 i :: results ms)).map (·, st i)))
  refine Phase.congr ?_ ?_ (p1.then ?_ (p2.then ?_ p3))
  · rintro ⟨i, c⟩
    by_cases hc : c = 0
    · simp only [many, hc, if_true, MPCₙ.join, runAt_finally, sendsThen_finally, recvsThen_finally, ofExcept_finally]
    · simp only [many, hc, if_false]
      rfl
  · rintro ⟨i, c⟩
    by_cases hc : c = 0
    · simp only [many, hc, if_true]
      have e : ∀ cs : List (Fin (k + 1)), results (ι := ι) (M := M) (cs.map fun c => .inr (.done (r c i))) =
          cs.map fun c => r c i := by
        intro cs
        induction cs with
        | nil => rfl
        | cons c cs ih => simp only [List.map_cons, results, ih]
      rw [e, List.finRange_succ]
      rfl
    · simp [many, hc]
  · rintro ⟨i, c⟩
    by_cases hc : c = 0
    · subst hc; rfl
    · simp [many, hc]
  · rintro ⟨i, c⟩
    by_cases hc : c = 0
    · subst hc; rfl
    · simp [many, hc]

theorem unwrap_map_ok {T : Type} (f : T → J) (l : List T) :
    unwrap (l.map fun c => (.ok (f c) : Except Err J)) = .ok (l.map f) := by
  induction l with
  | nil => rfl
  | cons c l ih => simp [unwrap, ih, Except.map]

/-- Each closure fails for all parties, or for none. -/
theorem Specₙ.join [Fintype ι] {fs : ι → Fin (k + 1) → Prog ι M Err J} {st : ι → S} {Q : (ι → List J) → (ι → S) → Prop}
    {P : Fin (k + 1) → (ι → J) → Prop}
    (h : ∀ c, wpE (fun i => fs i c) fun r => (bad ∧ ∃ e : ι → String, r = fun i => .error (.err (e i))) ∨
      ∃ v, r = (fun i => .ok (v i)) ∧ P c v)
    (hQ : ∀ v : Fin (k + 1) → ι → J, (∀ c, P c (v c)) → Q (fun i => (List.finRange (k + 1)).map fun c => v c i) st) :
    Specₙ bad (fun i => MPCₙ.join (fs i)) st Q := by
  choose r l hl hr using h
  refine Specₙ.join' (r := r) (fun c => ⟨l c, hl c⟩) ?_
  by_cases hall : ∀ c, ∃ v, r c = (fun i => .ok (v i)) ∧ P c v
  · choose v hv hP using hall
    refine .inr ⟨_, st, ?_, hQ v hP⟩
    funext i
    have e : (fun c => r c i) = fun c => .ok (v c i) := by funext c; rw [hv c]
    rw [e, unwrap_map_ok]
    rfl
  · push Not at hall
    obtain ⟨c, hc⟩ := hall
    have hb : bad := by
      rcases hr c with h | ⟨v, h1, h2⟩
      · exact h.1
      · exact (hc v h1 h2).elim
    refine .inl ⟨hb, ?_⟩
    have key : ∀ cs : List (Fin (k + 1)), c ∈ cs → ∃ e : ι → String,
        ∀ i, unwrap (cs.map fun c => r c i) = .error (.err (e i)) := by
      intro cs hm
      induction cs with
      | nil => simp at hm
      | cons d cs ih =>
        rcases hr d with ⟨-, e, he⟩ | ⟨v, hv, hP⟩
        · exact ⟨e, fun i => by simp [he, unwrap]⟩
        · have hd : c ≠ d := by rintro rfl; exact hc v hv hP
          obtain ⟨e, he⟩ := ih ((List.mem_cons.mp hm).resolve_left hd)
          exact ⟨e, fun i => by simp [hv, unwrap, he i, Except.map]⟩
    obtain ⟨e, he⟩ := key (List.finRange (k + 1)) (List.mem_finRange c)
    exact ⟨e, funext fun i => by rw [he i]; rfl⟩

theorem Specₙ.ensures [Fintype ι] {p : ι → MPCₙ k ι S M J α} {st : ι → S} {Q : (ι → α) → (ι → S) → Prop}
    (h : Specₙ bad p st Q) : EnsuresManyOr bad p st Q := by
  obtain ⟨n, r, hr, h⟩ := h
  have p1 := h (α × S) finish 0
  have p2 := Phase.scatter (k := k) (M := M) (γ := Option (α × S)) (fun _ _ => (.inr .stop : M ⊕ Job ι M J))
    (fun i => .ofExcept ((r i).map some)) (fun _ _ => fun
      | .inr .stop => .ret none
      | _ => .fail (.panic "unreachable"))
  have p3 : Phase (actors n p st) (fun z => .ofExcept (if z.2 = 0 then (r z.1).map some else .ok none)) := by
    refine Phase.congr (fun _ => rfl) ?_ (p1.then ?_ p2)
    · rintro ⟨i, c⟩
      by_cases hc : c = 0 <;> simp [many, hc, Prog.ofExcept]
    · rintro ⟨i, c⟩
      by_cases hc : c = 0
      · subst hc; rfl
      · simp only [many, hc, if_false]
        rfl
  obtain ⟨l, hl⟩ := p3.runs
  rcases hr with ⟨hb, e, rfl⟩ | ⟨v, s, rfl, hQ⟩
  · exact .inr ⟨hb, n, hl.allRuns fun i => ⟨e i, rfl⟩⟩
  · refine .inl ⟨n, hl.allRuns ⟨fun z => if z.2 = 0 then some (v z.1, s z.1) else none, ?_, v, s, fun _ => rfl, hQ⟩⟩
    intro z
    by_cases hz : z.2 = 0 <;> simp [hz, Except.map]

end Verif
