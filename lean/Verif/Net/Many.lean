import Verif.Net.TwoE

/-!
# Code that uses several networks and starts several closures at the same time

A Rust function of the form `fn f<N: Network>(nets: &[N; 8], state: &mut S, args)` that calls `mpc_net::join`, `join3`, …,
`join8`.  The actors are pairs of a party and one of its `k + 1` networks.  The actor of network `0` runs the function; the
actor of another network runs the closures that are given to it, one after the other.

Models: `/repo/mpc-net/src/lib.rs:139-330` (`join`, `join3` … `join8`) and the calling convention of
`/repo/co-circom/co-plonk/src`.

Simplifications: which operating system thread runs a closure is not modelled (the code runs the last closure on the calling
thread); the network a closure uses is.  A network for which there is no closure gets one that returns at once.
-/

namespace Verif

open Config

/-- What the actors of one party tell each other: a closure to run, that there are no more closures, the result of a closure.
`J` is the type of the results of all closures. -/
inductive Job (ι M J : Type) : Type where
  | start (f : Prog ι M Err J)
  | stop
  | done (y : Except Err J)

/-- Run the code `p` of one party on the network `c`, then continue with what it returned. -/
def Prog.runAt {ι κ M J α γ : Type} (c : κ) : Prog ι M Err α →
    (Except Err α → Prog (ι × κ) (M ⊕ J) Err γ) → Prog (ι × κ) (M ⊕ J) Err γ
  | .ret a, k => k (.ok a)
  | .fail e, k => k (.error e)
  | .send t m p, k => .send (t, c) (.inl m) (p.runAt c k)
  | .recv s p, k => .recv (s, c) fun
    | .inl m => (p m).runAt c k
    | .inr _ => k (.error (.panic "unreachable"))

/-- Code of one party that uses `k + 1` networks and one state. -/
def MPCₙ (k : Nat) (ι S M J α : Type) : Type :=
  ι → S → Prog (ι × Fin (k + 1)) (M ⊕ Job ι M J) Err (α × S)

namespace MPCₙ

variable {k : Nat} {ι S M J α β γ : Type}

/-- `Ok(a)`. -/
def pure (a : α) : MPCₙ k ι S M J α := fun _ s => .ret (a, s)

/-- `let x = p?; f(x)`. -/
def bind (p : MPCₙ k ι S M J α) (f : α → MPCₙ k ι S M J β) : MPCₙ k ι S M J β :=
  fun i s => (p i s).bind fun (a, s) => f a i s

instance : Monad (MPCₙ k ι S M J) where
  pure := MPCₙ.pure
  bind := MPCₙ.bind

/-- A call that uses the first network only. -/
def first (p : MPC ι S M Err α) : MPCₙ k ι S M J α := fun i s => (p i s).runAt 0 .ofExcept

/-- `Err(..)` or a panic. -/
def throw (e : Err) : MPCₙ k ι S M J α := fun _ _ => .fail e

/-- The networks other than the first. -/
def others (k : Nat) : List (Fin (k + 1)) := (List.finRange k).map Fin.succ

/-- The results of the closures that ran on the other networks. -/
def results : List (M ⊕ Job ι M J) → List (Except Err J)
  | [] => []
  | .inr (.done y) :: ms => y :: results ms
  | _ :: ms => .error (.panic "unreachable") :: results ms

/-- All closures have returned; the results are unwrapped with `?`, one after the other. -/
def unwrap : List (Except Err J) → Except Err (List J)
  | [] => .ok []
  | .error e :: _ => .error e
  | .ok y :: rs => (unwrap rs).map (y :: ·)

/-- `join` with one closure for each network, and the `?` on its results.
`/repo/mpc-net/src/lib.rs:139-330` -/
def join (fs : Fin (k + 1) → Prog ι M Err J) : MPCₙ k ι S M J (List J) := fun i s =>
  sendsThen ((others k).map fun c => ((i, c), .inr (.start (fs c))))
    ((fs 0).runAt 0 fun x => recvsThen ((others k).map fun c => (i, c)) fun ms =>
      .ofExcept ((unwrap (x :: results ms)).map (·, s)))

/-- The actor of network `c`: it runs up to `n` closures. -/
def worker (i : ι) (c : Fin (k + 1)) : Nat → Prog (ι × Fin (k + 1)) (M ⊕ Job ι M J) Err (Option γ)
  | 0 => .recv (i, 0) fun
    | .inr .stop => .ret none
    | _ => .fail (.panic "unreachable")
  | n + 1 => .recv (i, 0) fun
    | .inr (.start f) => f.runAt c fun y => .send (i, 0) (.inr (.done y)) (worker i c n)
    | .inr .stop => .ret none
    | _ => .fail (.panic "unreachable")

/-- One program for the actor of the first network, and one for each other actor. -/
def many {T : Type} (f : ι → T) (g : ι → Fin (k + 1) → T) (x : ι × Fin (k + 1)) : T :=
  if x.2 = 0 then f x.1 else g x.1 x.2

/-- The end of the actor of the first network: the other actors are told to stop. -/
def finish (i : ι) (r : Except Err γ) : Prog (ι × Fin (k + 1)) (M ⊕ Job ι M J) Err (Option γ) :=
  sendsThen ((others k).map fun c => ((i, c), .inr .stop)) (.ofExcept (r.map some))

/-- All actors of all parties, for a call that uses `join` at most `n` times. -/
def actors (n : Nat) (p : ι → MPCₙ k ι S M J α) (st : ι → S) :
    ι × Fin (k + 1) → Prog (ι × Fin (k + 1)) (M ⊕ Job ι M J) Err (Option (α × S)) :=
  many (fun i => (p i i (st i)).finally (finish i)) (fun i c => worker i c n)

theorem bind_apply (p : MPCₙ k ι S M J α) (f : α → MPCₙ k ι S M J β) (i : ι) (s : S) :
    (p >>= f) i s = (p i s).bind fun x => f x.1 i x.2 := rfl

instance : LawfulMonad (MPCₙ k ι S M J) := LawfulMonad.mk'
  (id_map := fun x => by
    funext i s
    show (x i s).bind (fun (a, s) => .ret (a, s)) = x i s
    exact Prog.bind_ret _)
  (pure_bind := fun _ _ => rfl)
  (bind_assoc := fun x f g => by
    funext i s
    show ((x i s).bind _).bind _ = (x i s).bind _
    rw [Prog.bind_assoc]
    rfl)

end MPCₙ

/-- In every execution of all actors either all parties return `Ok`, and the returned values and new states satisfy `Q`; or
`bad` holds and all parties return an error, none panics.  This is the form used in property statements. -/
def EnsuresManyOr {k : Nat} {ι S M J α : Type} [DecidableEq ι] (bad : Prop) (p : ι → MPCₙ k ι S M J α) (st : ι → S)
    (Q : (ι → α) → (ι → S) → Prop) : Prop :=
  (∃ n, Delivers (MPCₙ.actors n p st) fun r => ∃ (v : ι → α) (s : ι → S), (∀ i, r (i, 0) = some (v i, s i)) ∧ Q v s) ∨
    (bad ∧ ∃ n, AllRuns (MPCₙ.actors n p st) fun r _ => ∀ i, ∃ e, r (i, 0) = .error (.err e))

section Rules

open MPCₙ

variable {k : Nat} {ι κ S M J α β γ C : Type} [DecidableEq ι] [DecidableEq κ]

/-- An execution on network `c` while the actors of the other networks wait. -/
def Config.at (c : κ) (x : Config ι M Err α) (K : ι → Except Err α → Prog (ι × κ) (M ⊕ J) Err γ)
    (P : ι × κ → Prog (ι × κ) (M ⊕ J) Err γ) (L : ι × κ → List ((ι × κ) × (M ⊕ J))) :
    Config (ι × κ) (M ⊕ J) Err γ where
  progs a := if a.2 = c then (x.progs a.1).runAt c (K a.1) else P a
  chan a b := if a.2 = c ∧ b.2 = c then (x.chan a.1 b.1).map .inl else []
  log a := L a ++ if a.2 = c then (x.log a.1).map fun m => ((m.1, c), .inl m.2) else []

theorem step_at {c : κ} {x y : Config ι M Err α} {K : ι → Except Err α → Prog (ι × κ) (M ⊕ J) Err γ}
    {P : ι × κ → Prog (ι × κ) (M ⊕ J) Err γ} {L : ι × κ → List ((ι × κ) × (M ⊕ J))} (h : Step x y) :
    Step (x.at c K P L) (y.at c K P L) := by
  obtain ⟨i, hi⟩ := h
  refine ⟨(i, c), ?_⟩
  rcases step?_cases hi with ⟨t, m, k', hp, rfl⟩ | ⟨s, k', m, q, hp, hq, rfl⟩
  · rw [step?_send (t := (t, c)) (m := .inl m) (k := k'.runAt c (K i))
      (by simp [Config.at, hp, Prog.runAt])]
    congr 1
    ext ⟨a, x⟩ b : 2
    · by_cases hx : x = c <;> simp [Config.at, hx]
      by_cases ha : a = i <;> simp [ha]
    · obtain ⟨b, z⟩ := b
      by_cases hx : x = c <;> by_cases hz : z = c <;> simp [Config.at, hx, hz]
      by_cases ha : a = i <;> by_cases hb : b = t <;> simp [ha, hb, ← List.getElem?_map]
    · by_cases hx : x = c <;> simp [Config.at, hx]
  · rw [step?_recv (s := (s, c)) (m := .inl m) (q := q.map .inl)
      (k := fun
        | .inl m => (k' m).runAt c (K i)
        | .inr _ => K i (.error (.panic "unreachable")))
      (by simp [Config.at, hp, Prog.runAt]) (by simp [Config.at, hq])]
    congr 1
    ext ⟨a, x⟩ b : 2
    · by_cases hx : x = c <;> simp [Config.at, hx]
      by_cases ha : a = i <;> simp [ha]
    · obtain ⟨b, z⟩ := b
      by_cases hx : x = c <;> by_cases hz : z = c <;> simp [Config.at, hx, hz]
      by_cases ha : a = s <;> by_cases hb : b = i <;> simp [ha, hb]
    · by_cases hx : x = c <;> simp [Config.at, hx]
      by_cases ha : a = i <;> simp [ha]

theorem Phase.at {c : κ} {p : ι → Prog ι M Err α} {r : ι → Except Err α} {l : ι → List (ι × M)} (h : Runs p r l)
    (K : ι → Except Err α → Prog (ι × κ) (M ⊕ J) Err γ) (P : ι × κ → Prog (ι × κ) (M ⊕ J) Err γ) :
    Phase (fun x => if x.2 = c then (p x.1).runAt c (K x.1) else P x)
      (fun x => if x.2 = c then K x.1 (r x.1) else P x) := by
  intro L
  obtain ⟨n, hn⟩ := h
  have h1 : ∀ {n} {x y : Config ι M Err α}, Steps n x y → Steps n (x.at c K P L) (y.at c K P L) := by
    intro n x y h
    induction h with
    | refl c => exact .refl _
    | head hs _ ih => exact .head (step_at hs) ih
  have h := h1 hn
  have e1 : (Config.init p).at c K P L =
      ⟨fun x => if x.2 = c then (p x.1).runAt c (K x.1) else P x, fun _ _ => [], L⟩ := by
    ext ⟨a, x⟩ b <;> simp [Config.at, Config.init]
  have e2 : (Config.final r l).at c K P L =
      ⟨fun x => if x.2 = c then K x.1 (r x.1) else P x, fun _ _ => [], ((Config.final r l).at c K P L).log⟩ := by
    ext ⟨a, x⟩ b
    · simp only [Config.at, Config.final]
      cases r a <;> simp [Prog.ofExcept, Prog.runAt]
    · simp [Config.at, Config.final]
    · rfl
  rw [e1, e2] at h
  exact ⟨_, _, h⟩

/-- Executions on all networks. -/
theorem Phase.all {p : Fin (k + 1) → ι → Prog ι M Err α} {r : Fin (k + 1) → ι → Except Err α}
    (h : ∀ c, ∃ l, Runs (p c) (r c) l) (K : Fin (k + 1) → ι → Except Err α → Prog (ι × Fin (k + 1)) (M ⊕ J) Err γ) :
    Phase (fun x => (p x.2 x.1).runAt x.2 (K x.2 x.1)) (fun x => K x.2 x.1 (r x.2 x.1)) := by
  have key : ∀ cs : List (Fin (k + 1)), cs.Nodup →
      Phase (fun x => (p x.2 x.1).runAt x.2 (K x.2 x.1))
        (fun x => if x.2 ∈ cs then K x.2 x.1 (r x.2 x.1) else (p x.2 x.1).runAt x.2 (K x.2 x.1)) := by
    intro cs hcs
    induction cs with
    | nil => exact fun L => ⟨0, L, by simpa using .refl _⟩
    | cons c cs ih =>
      obtain ⟨hc, hcs⟩ := List.nodup_cons.mp hcs
      obtain ⟨l, hl⟩ := h c
      refine (ih hcs).then ?_ (Phase.congr ?_ ?_ (Phase.at (c := c) hl (K c)
        (fun x => if x.2 ∈ cs then K x.2 x.1 (r x.2 x.1) else (p x.2 x.1).runAt x.2 (K x.2 x.1))))
        (Q' := fun x => if x.2 ∈ cs then K x.2 x.1 (r x.2 x.1) else (p x.2 x.1).runAt x.2 (K x.2 x.1))
      · exact fun _ => rfl
      · rintro ⟨i, x⟩
        by_cases hx : x = c
        · subst hx; simp [hc]
        · simp [hx]
      · rintro ⟨i, x⟩
        by_cases hx : x = c
        · subst hx; simp
        · simp [hx]
  refine Phase.congr (fun _ => rfl) ?_ (key (List.finRange (k + 1)) (List.nodup_finRange _))
  intro x
  simp

theorem others_nodup : (others k).Nodup := (List.nodup_finRange k).map (Fin.succ_injective k)

theorem mem_others {c : Fin (k + 1)} : c ∈ others k ↔ c ≠ 0 := by
  simp only [others, List.mem_map, List.mem_finRange, true_and]
  exact ⟨fun ⟨a, h⟩ => h ▸ Fin.succ_ne_zero a, fun h => Fin.exists_succ_eq.mpr h⟩

/-- The actor of the first network of every party sends one message to each other actor of the party. -/
theorem Phase.scatter [Fintype ι] {J : Type} (m : ι → Fin (k + 1) → M ⊕ J)
    (p : ι → Prog (ι × Fin (k + 1)) (M ⊕ J) Err γ) (K : ι → Fin (k + 1) → M ⊕ J → Prog (ι × Fin (k + 1)) (M ⊕ J) Err γ) :
    Phase (many (fun i => sendsThen ((others k).map fun c => ((i, c), m i c)) (p i)) (fun i c => .recv (i, 0) (K i c)))
      (many p (fun i c => K i c (m i c))) := by
  intro L
  obtain ⟨n, hn⟩ := steps_round (E := Err)
    (outs := fun x : ι × Fin (k + 1) => if x.2 = 0 then (others k).map fun c => ((x.1, c), m x.1 c) else [])
    (ins := fun x => if x.2 = 0 then [] else [(x.1, 0)]) (msg := fun _ y => m y.1 y.2)
    (k := fun x ms => if x.2 = 0 then p x.1 else match ms with
      | [y] => K x.1 x.2 y
      | _ => .fail (.panic ""))
    (by
      rintro ⟨i, x⟩ ⟨j, y⟩
      have aux : ∀ cs : List (Fin (k + 1)), cs.Nodup → msgsTo (j, y) (cs.map fun c => ((i, c), m i c)) =
          if i = j ∧ y ∈ cs then [m j y] else [] := by
        intro cs hcs
        induction cs with
        | nil => simp [msgsTo]
        | cons c cs ih =>
          obtain ⟨hc, hcs⟩ := List.nodup_cons.mp hcs
          simp only [List.map_cons, msgsTo, ih hcs, Prod.mk.injEq, List.mem_cons]
          by_cases hi : i = j
          · subst hi
            by_cases hy : c = y
            · subst hy; simp [hc]
            · simp [hy, Ne.symm hy]
          · simp [hi]
      by_cases hx : x = 0
      · subst hx
        simp only [if_true, aux _ others_nodup, mem_others]
        by_cases hy : y = 0
        · simp [hy]
        · simp [hy]
      · have h1 : ¬ (i, x) = (j, 0) := by simp [hx]
        by_cases hy : y = 0 <;> simp [hx, hy, msgsTo])
    (by rintro ⟨j, y⟩; simp only; split <;> simp)
  have h := steps_withLog L hn
  refine ⟨n, fun x => L x ++ (if x.2 = 0 then [] else [(x.1, 0)]).map fun s => (s, m x.1 x.2), ?_⟩
  convert h using 1
  · ext x y
    · simp only [Config.init, withLog, many]
      by_cases hx : x.2 = 0 <;> simp [hx, sendsThen, recvsThen]
    · simp [Config.init, withLog]
    · simp [Config.init, withLog]
  · simp only [withLog]
    congr 1
    funext x
    by_cases hx : x.2 = 0 <;> simp [hx, many]

/-- The other actors of every party each send one message to the actor of the first network, which receives them in order. -/
theorem Phase.gather [Fintype ι] {J : Type} (m : ι → Fin (k + 1) → M ⊕ J)
    (p : ι → Fin (k + 1) → Prog (ι × Fin (k + 1)) (M ⊕ J) Err γ)
    (K : ι → List (M ⊕ J) → Prog (ι × Fin (k + 1)) (M ⊕ J) Err γ) :
    Phase (many (fun i => recvsThen ((others k).map fun c => (i, c)) (K i)) (fun i c => .send (i, 0) (m i c) (p i c)))
      (many (fun i => K i ((others k).map (m i))) p) := by
  intro L
  obtain ⟨n, hn⟩ := steps_round (E := Err)
    (outs := fun x : ι × Fin (k + 1) => if x.2 = 0 then [] else [((x.1, 0), m x.1 x.2)])
    (ins := fun x => if x.2 = 0 then (others k).map fun c => (x.1, c) else []) (msg := fun x _ => m x.1 x.2)
    (k := fun x ms => if x.2 = 0 then K x.1 ms else p x.1 x.2)
    (by
      rintro ⟨i, x⟩ ⟨j, y⟩
      by_cases hx : x = 0
      · by_cases hy : y = 0 <;> simp [hx, hy, msgsTo, mem_others]
      · by_cases hy : y = 0
        · subst hy
          by_cases hi : i = j
          · subst hi; simp [hx, msgsTo, mem_others]
          · simp [hx, msgsTo, hi, Ne.symm hi]
        · simp [hx, hy, msgsTo, Ne.symm hy])
    (by
      rintro ⟨j, y⟩
      simp only
      split
      · exact others_nodup.map fun a b h => (Prod.mk.inj h).2
      · exact List.nodup_nil)
  have h := steps_withLog L hn
  refine ⟨n, fun x => L x ++ (if x.2 = 0 then (others k).map fun c => (x.1, c) else []).map fun s => (s, m s.1 s.2), ?_⟩
  convert h using 1
  · ext x y
    · simp only [Config.init, withLog, many]
      by_cases hx : x.2 = 0 <;> simp [hx, sendsThen, recvsThen]
    · simp [Config.init, withLog]
    · simp [Config.init, withLog]
  · simp only [withLog]
    congr 1
    funext x
    by_cases hx : x.2 = 0 <;> simp [hx, many, Function.comp_def]

end Rules

end Verif
