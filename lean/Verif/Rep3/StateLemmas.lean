import Verif.Rep3.State
import Mathlib.Algebra.Group.Basic
import Mathlib.Tactic.Abel
import Mathlib.Tactic.Ring

/-!
# Rules for the network primitives and the synchronisation invariant
-/

namespace Verif

open PartyID

/-- The generators of the three parties are synchronised as the protocols require: the second
pairwise generator of each party equals the first of the previous party; the bit-composition
generators that two parties both know are equal. -/
structure Corr {R : Type} (t : A2BType) (st : PartyID → Rep3State R) : Prop where
  id : ∀ i, (st i).id = i
  rand : ∀ i, (st i).rngs.rand.rng2 = (st i.prev).rngs.rand.rng1
  bc1a : (st ID2).rngs.bitcomp1.rng3 = some (st ID1).rngs.bitcomp1.rng1
  bc1b : (st ID2).rngs.bitcomp1.rng1 = (st ID1).rngs.bitcomp1.rng2
  bc1c : (st ID1).rngs.bitcomp1.rng3 = some (st ID2).rngs.bitcomp1.rng2
  bc2a : (st ID0).rngs.bitcomp2.rng1 = (st ID2).rngs.bitcomp2.rng2
  bc2b : (st ID2).rngs.bitcomp2.rng3 = some (st ID0).rngs.bitcomp2.rng2
  bc2c : (st ID0).rngs.bitcomp2.rng3 = some (st ID2).rngs.bitcomp2.rng1
  a2b : ∀ i, (st i).a2bType = t

namespace Rep3

variable {R M α β : Type} {t : A2BType}

theorem Spec3 {S : Type} {p : PartyID → MPC PartyID S M Err α} {st : PartyID → S}
    {Q : (PartyID → α) → (PartyID → S) → Prop}
    (h : W3 (fun a b c => Q (three a.1 b.1 c.1) (three a.2 b.2 c.2))
      (p ID0 ID0 (st ID0)) (p ID1 ID1 (st ID1)) (p ID2 ID2 (st ID2)) [] [] [] [] [] []) :
    Spec p st Q := by
  refine wp_iff_W3 (p := fun i => p i i (st i)) ?_
  convert h using 4
  rename_i a b c
  have e1 : (fun i => (three a b c i).1) = three a.1 b.1 c.1 := by
    funext i; cases i <;> rfl
  have e2 : (fun i => (three a b c i).2) = three a.2 b.2 c.2 := by
    funext i; cases i <;> rfl
  rw [e1, e2]

theorem three_prev (x : PartyID → α) :
    three (x ID2) (x ID0) (x ID1) = fun i => x i.prev := by
  funext i; cases i <;> rfl

theorem spec_reshareMany [Codec M (List α)] {x : PartyID → List α}
    {st : PartyID → Rep3State R} :
    Spec (M := M) (fun i => reshareMany (x i)) st (fun r s => (r = fun i => x i.prev) ∧ s = st) := by
  refine Spec3 ?_
  simp [reshareMany, sendAndRecvMany, sendMany, recvMany, MPC.recv_apply]
  exact ⟨three_prev _, three_eta _⟩

theorem spec_reshare [Codec M (List α)] {x : PartyID → α}
    {st : PartyID → Rep3State R} :
    Spec (M := M) (fun i => reshare (x i)) st (fun r s => (r = fun i => x i.prev) ∧ s = st) := by
  refine Spec3 ?_
  simp [reshare, exactlyOne, reshareMany, sendAndRecvMany, sendMany, recvMany, MPC.recv_apply]
  exact ⟨three_prev _, three_eta _⟩

theorem spec_broadcastMany [Codec M (List α)] {x : PartyID → List α}
    {st : PartyID → Rep3State R} :
    Spec (M := M) (fun i => broadcastMany (x i)) st
      (fun r s => (r = fun i => (x i.prev, x i.next)) ∧ s = st) := by
  refine Spec3 ?_
  simp [broadcastMany, sendBothMany, recvMany, MPC.recv_apply]
  have e : three (x ID2, x ID1) (x ID0, x ID2) (x ID1, x ID0) = fun i => (x i.prev, x i.next) := by
    funext i; cases i <;> rfl
  exact ⟨e, three_eta _⟩

theorem spec_broadcast [Codec M (List α)] {x : PartyID → α}
    {st : PartyID → Rep3State R} :
    Spec (M := M) (fun i => broadcast (x i)) st
      (fun r s => (r = fun i => (x i.prev, x i.next)) ∧ s = st) := by
  refine Spec3 ?_
  simp [broadcast, broadcastMany, sendBothMany, recvMany, exactlyOne, MPC.recv_apply]
  have e : three (x ID2, x ID1) (x ID0, x ID2) (x ID1, x ID0) = fun i => (x i.prev, x i.next) := by
    funext i; cases i <;> rfl
  exact ⟨e, three_eta _⟩

/-- Replace the pairwise generators in a state. -/
def setRand (s : Rep3State R) (g : Rep3Rand R) : Rep3State R :=
  { s with rngs := { s.rngs with rand := g } }

@[simp] theorem setRand_rand (s : Rep3State R) (g : Rep3Rand R) :
    (setRand s g).rngs.rand = g := rfl

theorem spec_withRand {f : PartyID → Rep3Rand R → α × Rep3Rand R} {st : PartyID → Rep3State R}
    {Q : (PartyID → α) → (PartyID → Rep3State R) → Prop}
    (h : Q (fun i => (f i (st i).rngs.rand).1)
      (fun i => setRand (st i) (f i (st i).rngs.rand).2)) :
    Spec (M := M) (fun i => withRand (f i)) st Q :=
  Spec.modifyGet h

/-- Updating the pairwise generators consistently keeps the states synchronised. -/
theorem _root_.Verif.Corr.setRand {st : PartyID → Rep3State R} (h : Corr t st) {g : PartyID → Rep3Rand R}
    (hg : ∀ i, (g i).rng2 = (g i.prev).rng1) : Corr t (fun i => Rep3.setRand (st i) (g i)) where
  id := h.id
  rand := hg
  bc1a := h.bc1a
  bc1b := h.bc1b
  bc1c := h.bc1c
  bc2a := h.bc2a
  bc2b := h.bc2b
  bc2c := h.bc2c
  a2b := h.a2b

/-- The masks drawn by the three parties add up to zero. -/
theorem spec_masking [Sample R α] [AddCommGroup α] {st : PartyID → Rep3State R}
    (hst : Corr t st) :
    Spec (M := M) (fun _ => withRand (Rep3Rand.masking (α := α))) st
      (fun m st' => m ID0 + m ID1 + m ID2 = 0 ∧ Corr t st') := by
  refine spec_withRand (f := fun _ => Rep3Rand.masking) ⟨?_, Corr.setRand hst ?_⟩
  · simp [Rep3Rand.masking, Rep3Rand.randomPair, hst.rand]
  · intro i
    simp [Rep3Rand.masking, Rep3Rand.randomPair, hst.rand i]

/-- Drawing from both generators: the second value is the first one of the previous party. -/
theorem spec_randomPair [Sample R α] {st : PartyID → Rep3State R} (hst : Corr t st) :
    Spec (M := M) (fun _ => withRand (Rep3Rand.randomPair (α := α))) st
      (fun r st' => (∃ x : PartyID → α, r = fun i => (x i, x i.prev)) ∧ Corr t st') := by
  refine spec_withRand (f := fun _ => Rep3Rand.randomPair)
    ⟨⟨fun i => (Sample.sample (st i).rngs.rand.rng1).1, ?_⟩, hst.setRand ?_⟩
  · funext i; simp [Rep3Rand.randomPair, hst.rand i]
  · intro i; simp [Rep3Rand.randomPair, hst.rand i]

end Rep3

end Verif
