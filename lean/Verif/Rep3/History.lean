import Verif.Rep3.StateLemmas

/-!
# Histories of randomness requests

A protocol execution consumes the correlated generators by the requests of
`/repo/mpc-core/src/protocols/rep3/rngs.rs`. `RngOp` lists the ways in which the protocols of
`/repo/mpc-core/src/protocols` let the three parties make them; a history is a list of them.
-/

namespace Verif

open PartyID

variable {R : Type}

/-- A joint randomness request, or a fork of the states.
`/repo/mpc-core/src/protocols/rep3/rngs.rs:48-57`, `97-246`, `281-328`,
`/repo/mpc-core/src/protocols/rep3.rs:120-132` -/
inductive RngOp (R : Type) : Type 1 where
  /-- all parties draw one `α` from both pairwise generators (`masking_*`, `random_*`) -/
  | pair (α : Type) (s : Sample R α)
  /-- all parties draw `n` elements at once (`masking_field_elements_vec`) -/
  | pairVec (α : Type) (s : SampleVec R α) (n : Nat)
  /-- party `i` draws from its own generator, the next party draws the same value from its second
  generator (`random_fes_1rng1` .. `random_elements_2`) -/
  | oneSided (α : Type) (s : Sample R α) (i : PartyID)
  /-- parties 1 and 2 draw from the three generators of the first bit composition (`b2a`, `y2a`) -/
  | bitcomp1 (α : Type) (s : Sample R α)
  /-- parties 0 and 2 draw from the three generators of the second bit composition (`a2y`) -/
  | bitcomp2 (α : Type) (s : Sample R α)
  /-- `generate_shared` at all parties -/
  | shared (α : Type) (s : Sample R α)
  /-- fork all states and go on with the old ones -/
  | forkParent
  /-- fork all states and go on with the new ones -/
  | forkChild

namespace RngOp

/-- Let party `i` update the correlated generators. -/
def upd (st : PartyID → Rep3State R) (f : PartyID → CorrelatedRng R → CorrelatedRng R) :
    PartyID → Rep3State R := fun i => { st i with rngs := f i (st i).rngs }

/-- Effect of a request on the three states; `none` if a party panics. Citations at `RngOp` and at
the functions called. -/
def run (Seed : Type) [Sample R Seed] [Seedable R Seed] (st : PartyID → Rep3State R) :
    RngOp R → Option (PartyID → Rep3State R)
  | pair α _ => some (upd st fun _ g => { g with rand := (g.rand.randomPair (α := α)).2 })
  | pairVec α _ n => some (upd st fun _ g => { g with rand :=
      ⟨(SampleVec.sampleVec (α := α) g.rand.rng1 n).2, (SampleVec.sampleVec (α := α) g.rand.rng2 n).2⟩ })
  | oneSided α _ i => some (upd st fun j g =>
      if j = i then { g with rand := (g.rand.draw1 (α := α)).2 }
      else if j = i.next then { g with rand := (g.rand.draw2 (α := α)).2 }
      else g)
  | bitcomp1 α _ => do
      let (_, b1) ← (st ID1).rngs.bitcomp1.random3 (α := α)
      let (_, b2) ← (st ID2).rngs.bitcomp1.random3 (α := α)
      pure (upd st fun j g => { g with bitcomp1 := three g.bitcomp1 b1 b2 j })
  | bitcomp2 α _ => do
      let (_, b0) ← (st ID0).rngs.bitcomp2.random3 (α := α)
      let (_, b2) ← (st ID2).rngs.bitcomp2.random3 (α := α)
      pure (upd st fun j g => { g with bitcomp2 := three b0 g.bitcomp2 b2 j })
  | shared α _ => some (upd st fun j g => (g.generateShared (α := α) j).2)
  | forkParent => some fun i => ((st i).fork Seed).2
  | forkChild => some fun i => ((st i).fork Seed).1

/-- A whole history. -/
def runs (Seed : Type) [Sample R Seed] [Seedable R Seed] (st : PartyID → Rep3State R) :
    List (RngOp R) → Option (PartyID → Rep3State R)
  | [] => some st
  | o :: os => do
    let st ← o.run Seed st
    runs Seed st os

variable {Seed : Type} [Sample R Seed] [Seedable R Seed] {t : A2BType}

theorem run_corr {st : PartyID → Rep3State R} (h : Corr t st) (o : RngOp R) :
    ∃ st', o.run Seed st = some st' ∧ Corr t st' := by
  have hid := h.id
  have hr := h.rand
  have h1 := h.bc1a
  have h2 := h.bc1b
  have h3 := h.bc1c
  have h4 := h.bc2a
  have h5 := h.bc2b
  have h6 := h.bc2c
  have ha := h.a2b
  cases o with
  | pair α s =>
    exact ⟨_, rfl, { h with rand := fun i => by simp [upd, Rep3Rand.randomPair, hr i] }⟩
  | pairVec α s n =>
    exact ⟨_, rfl, { h with rand := fun i => by simp [upd, hr i] }⟩
  | oneSided α s i =>
    refine ⟨_, rfl, ?_⟩
    constructor <;> (try intro j) <;> (try cases j) <;> cases i <;>
      simp_all [upd, Rep3Rand.draw1, Rep3Rand.draw2]
  | bitcomp1 α s =>
    simp only [run, BitComp.random3, h1, h3, Option.pure_def, Option.bind_eq_bind,
      Option.bind_some]
    refine ⟨_, rfl, ?_⟩
    constructor <;> (try intro j) <;> simp_all [upd]
  | bitcomp2 α s =>
    simp only [run, BitComp.random3, h5, h6, Option.pure_def, Option.bind_eq_bind,
      Option.bind_some]
    refine ⟨_, rfl, ?_⟩
    constructor <;> (try intro j) <;> simp_all [upd]
  | shared α s =>
    refine ⟨_, rfl, ?_⟩
    constructor <;> (try intro j) <;> (try cases j) <;> simp_all [upd, CorrelatedRng.generateShared]
  | forkParent =>
    refine ⟨_, rfl, ?_⟩
    constructor <;> (try intro j) <;> simp_all [Rep3State.fork, CorrelatedRng.fork, Rep3Rand.fork,
      BitComp.fork, Rep3Rand.randomPair]
  | forkChild =>
    refine ⟨_, rfl, ?_⟩
    constructor <;> (try intro j) <;> simp_all [Rep3State.fork, CorrelatedRng.fork, Rep3Rand.fork,
      BitComp.fork, Rep3Rand.randomPair]

theorem runs_corr {st : PartyID → Rep3State R} (h : Corr t st) (os : List (RngOp R)) :
    ∃ st', runs Seed st os = some st' ∧ Corr t st' := by
  induction os generalizing st with
  | nil => exact ⟨st, rfl, h⟩
  | cons o os ih =>
    obtain ⟨st', h1, h2⟩ := run_corr (Seed := Seed) h o
    obtain ⟨st'', h3, h4⟩ := ih h2
    exact ⟨st'', by simp [runs, h1, h3], h4⟩

/-- Party 0's copy of the generator used by `generate_shared` equals that of party 1. -/
def SharedSync (st : PartyID → Rep3State R) : Prop :=
  (st ID0).rngs.bitcomp1.rng2 = (st ID1).rngs.bitcomp1.rng2

/-- Not a draw from the first bit composition (`b2a`, `y2a`). -/
def NoBitcomp1 : RngOp R → Prop
  | bitcomp1 _ _ => False
  | _ => True

theorem run_sharedSync {st st' : PartyID → Rep3State R} (h : SharedSync st) (o : RngOp R)
    (ho : o.NoBitcomp1) (hr : o.run Seed st = some st') : SharedSync st' := by
  cases o with
  | pair α s => cases hr; simpa [SharedSync, upd] using h
  | pairVec α s n => cases hr; simpa [SharedSync, upd] using h
  | oneSided α s i =>
    cases hr; cases i <;> simpa [SharedSync, upd] using h
  | bitcomp1 α s => exact ho.elim
  | bitcomp2 α s =>
    simp only [run, Option.bind_eq_bind] at hr
    rcases Option.bind_eq_some_iff.mp hr with ⟨x, -, hr⟩
    rcases Option.bind_eq_some_iff.mp hr with ⟨y, -, hr⟩
    cases hr; simpa [SharedSync, upd] using h
  | shared α s =>
    cases hr
    unfold SharedSync at h ⊢
    simp [upd, CorrelatedRng.generateShared, h]
  | forkParent =>
    cases hr
    unfold SharedSync at h ⊢
    simp only [Rep3State.fork, CorrelatedRng.fork, BitComp.fork, h]
    split <;> split <;> rfl
  | forkChild =>
    cases hr
    unfold SharedSync at h ⊢
    simp only [Rep3State.fork, CorrelatedRng.fork, BitComp.fork, h]
    split <;> split <;> rfl

theorem runs_sharedSync {st st' : PartyID → Rep3State R} (h : SharedSync st) (os : List (RngOp R))
    (ho : ∀ o ∈ os, o.NoBitcomp1) (hr : runs Seed st os = some st') : SharedSync st' := by
  induction os generalizing st with
  | nil => cases hr; exact h
  | cons o os ih =>
    simp only [runs, Option.bind_eq_bind] at hr
    rcases Option.bind_eq_some_iff.mp hr with ⟨x, h1, hr⟩
    exact ih (run_sharedSync h o (ho o (by simp)) h1) (fun o' h' => ho o' (by simp [h'])) hr

end RngOp

namespace Rep3

variable {M Seed : Type} [Sample R Seed] [Seedable R Seed] [Codec M (List Seed)]
  [Codec M (List (Seed × Seed))]

theorem spec_newState {rng : PartyID → R} {t : A2BType} {st : PartyID → Rep3State R} :
    Spec (M := M) (fun i => newState Seed (rng i) t) st
      (fun r _ => Corr t r ∧ RngOp.SharedSync r) := by
  refine Spec3 ?_
  simp [newState, setupPrf, setupBitcomp, Rep3Rand.randomPair, reshare, exactlyOne, reshareMany,
    sendAndRecv, sendAndRecvMany, sendMany, recvMany, sendNext, sendTo, recvPrev, recvFrom,
    MPC.recv_apply]
  constructor
  · constructor <;> (try intro j) <;> (try cases j) <;> simp
  · simp [RngOp.SharedSync]

end Rep3

end Verif
