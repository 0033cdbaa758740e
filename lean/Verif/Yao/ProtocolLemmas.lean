import Verif.Yao.Protocol
import Verif.Yao.SortCircLemmas
import Verif.Yao.ComputesLemmas
import Verif.Spec.YaoShare
import Verif.Rep3.StateLemmas
import Verif.Rep3.DetailLemmas

/-!
# Rules for the three-party garbled circuit protocol
-/

namespace Verif.Yao

open PartyID
open Verif.Rep3

variable {R M : Type} {w p : Nat} [YaoRng R] [YaoNet M] {ty : A2BType} {st : PartyID → Rep3State R}

theorem isYShare_iff {d : Label} {y : PartyID → List Label} {bits : List Bool} :
    IsYShare d y bits ↔ All3 (Enc d) (y ID1) (y ID0) bits ∧ y ID2 = y ID1 := by
  constructor
  · intro h
    refine ⟨?_, h.garblers⟩
    rw [h.evaluator]
    exact all3_encodes d h.length
  · rintro ⟨h, e⟩
    exact ⟨e, h.len, encodes_of_all3 h⟩

theorem color_or_one (x : Label) : Label.color (x ||| 1#128) = true := by
  simp [Label.color]

omit [YaoNet M] in
theorem spec_delta' (hst : Corr ty st) :
    Spec (M := M) (fun _ => generateRandomGarblerDelta) st (fun r st' =>
      r ID0 = none ∧ (∃ d, r ID1 = some d ∧ r ID2 = some d ∧ d.color = true) ∧ Corr ty st') := by
  refine Spec3 ?_
  simp only [generateRandomGarblerDelta, stateId, withRngs, MPC.bind_apply, MPC.modifyGet_apply,
    Prog.ret_bind, hst.id, garblerDelta, randomDelta, W3_ret]
  have h2 := hst.rand ID2
  simp only [PartyID.ID2_prev] at h2
  refine ⟨by simp only [three_0],
    ⟨(Sample.sample (α := Label) (st ID1).rngs.rand.rng1).1 ||| 1#128, ?_, ?_, color_or_one _⟩, ?_⟩
  · simp only [three_1]
  · simp only [three_2]
    rw [h2]
  · constructor <;> (try intro i) <;> (try cases i) <;>
      simp [hst.id, hst.rand, hst.a2b, hst.bc1a, hst.bc1b, hst.bc1c, hst.bc2a, hst.bc2b, hst.bc2c]

omit [YaoNet M] in
theorem spec_delta (hst : Corr ty st) :
    Spec (M := M) (fun _ => generateRandomGarblerDelta) st (fun r st' =>
      (∃ d, IsDelta r d) ∧ Corr ty st') :=
  (spec_delta' hst).mono fun _ _ ⟨_, ⟨d, h1, h2, h3⟩, h⟩ => ⟨⟨d, h1, h2, h3⟩, h⟩

theorem all3_encodeBits (d : Label) (bits : List Bool) (rng : R) :
    All3 (Enc d) (encodeBits d bits rng).1.1 (encodeBits d bits rng).1.2 bits := by
  induction bits generalizing rng with
  | nil => exact .nil
  | cons b bs ih => exact .cons rfl (ih _)

/-- Synchronisation does not concern the parties' own generators. -/
theorem corr_setRng {s : PartyID → Rep3State R} (hst : Corr ty st)
    (h : ∀ i, s i = ⟨i, (st i).rngs, (s i).rng, (st i).a2bType⟩) : Corr ty s := by
  have e0 := h ID0
  have e1 := h ID1
  have e2 := h ID2
  constructor
  · intro i; rw [h i]
  · intro i; rw [h i, h i.prev]; exact hst.rand i
  · rw [e1, e2]; exact hst.bc1a
  · rw [e1, e2]; exact hst.bc1b
  · rw [e1, e2]; exact hst.bc1c
  · rw [e0, e2]; exact hst.bc2a
  · rw [e0, e2]; exact hst.bc2b
  · rw [e0, e2]; exact hst.bc2c
  · intro i; rw [h i]; exact hst.a2b i

theorem state_eta (hst : Corr ty st) (i : PartyID) : st i = ⟨i, (st i).rngs, (st i).rng, (st i).a2bType⟩ := by
  have h := hst.id i
  cases e : st i
  rw [e] at h
  simp_all

theorem spec_jointInput {n : Nat} {bits1 bits2 : PartyID → List Bool} {delta : PartyID → Option Label}
    {d : Label} (hd : IsDelta delta d) (h1 : (bits1 ID1).length = n) (h2 : (bits2 ID2).length = n)
    (hst : Corr ty st) :
    Spec (M := M) (fun i => jointInput n (bits1 i) (bits2 i) (delta i)) st (fun r st' =>
      (IsYShare d (fun i => (r i).1) (bits1 ID1) ∧ IsYShare d (fun i => (r i).2) (bits2 ID2)) ∧
        Corr ty st') := by
  have a1 := all3_encodeBits d (bits1 ID1) (st ID1).rng
  have a2 := all3_encodeBits d (bits2 ID2) (st ID2).rng
  have l1 : (encodeBits d (bits1 ID1) (st ID1).rng).1.1.length = n := a1.len.trans h1
  have l1' : (encodeBits d (bits1 ID1) (st ID1).rng).1.2.length = n := a1.len'.trans h1
  have l2 : (encodeBits d (bits2 ID2) (st ID2).rng).1.1.length = n := a2.len.trans h2
  have l2' : (encodeBits d (bits2 ID2) (st ID2).rng).1.2.length = n := a2.len'.trans h2
  refine Spec3 ?_
  simp [jointInput, stateId, hst.id, hd.party1, hd.party2, needDelta, encodeOwn, sendInputs, receiveBundle,
    sendMany, recvMany, MPC.recv_apply, l1, l1', l2, l2']
  refine ⟨⟨isYShare_iff.2 ⟨a1, rfl⟩, isYShare_iff.2 ⟨a2, rfl⟩⟩, corr_setRng hst ?_⟩
  intro i
  cases i
  · exact state_eta hst ID0
  · rfl
  · rfl

/-! ### Garbling and evaluating -/

/-- The states after both garblers drew a seed. -/
def garblerSt (st : PartyID → Rep3State R) : PartyID → Rep3State R :=
  three (st ID0) (setRand (st ID1) ((st ID1).rngs.rand.draw1 (α := YaoRng.Seed R)).2)
    (setRand (st ID2) ((st ID2).rngs.rand.draw2 (α := YaoRng.Seed R)).2)

/-- The generator of the garblers. -/
def garblerRng (st : PartyID → Rep3State R) : R :=
  Seedable.fromSeed ((st ID1).rngs.rand.draw1 (α := YaoRng.Seed R)).1

theorem corr_garblerSt (hst : Corr ty st) : Corr ty (garblerSt st) := by
  have h2 := hst.rand ID2
  simp only [PartyID.ID2_prev] at h2
  constructor <;> (try intro i) <;> (try cases i) <;>
    simp [garblerSt, setRand, Rep3Rand.draw1, Rep3Rand.draw2, h2, hst.id, hst.rand, hst.a2b, hst.bc1a,
      hst.bc1b, hst.bc1c, hst.bc2a, hst.bc2b, hst.bc2c]

omit [YaoNet M] in
theorem newWithDelta1 (d : Label) (hst : Corr ty st) :
    (newWithDelta d : Rep3M R M _) ID1 (st ID1) =
      .ret (Garbler.new d (garblerRng st), garblerSt st ID1) := by
  simp [newWithDelta, stateId, hst.id, withRngs?, CorrelatedRng.generateGarblerRandomness, garblerRng,
    garblerSt, setRand]

omit [YaoNet M] in
theorem newWithDelta2 (d : Label) (hst : Corr ty st) :
    (newWithDelta d : Rep3M R M _) ID2 (st ID2) =
      .ret (Garbler.new d (garblerRng st), garblerSt st ID2) := by
  have h2 := hst.rand ID2
  simp only [PartyID.ID2_prev] at h2
  simp [newWithDelta, stateId, hst.id, withRngs?, CorrelatedRng.generateGarblerRandomness, garblerRng,
    garblerSt, setRand, Rep3Rand.draw1, Rep3Rand.draw2, h2]

theorem inStep_new (d : Label) (rng : R) (blocks : List Label) :
    InStep d (Garbler.new d rng) (Evaluator.new blocks) := ⟨rfl, rfl, rfl, trivial, trivial⟩

theorem spec_evalShared {α : Type} {delta : PartyID → Option Label} {d : Label} (hd : IsDelta delta d)
    {c : PartyID → Circ Label α} {Q : α → α → Prop} (hc : CSpec (Enc d) Q (c ID1) (c ID0))
    (h12 : c ID2 = c ID1) (hst : Corr ty st) :
    Spec (M := M) (fun i => evalShared (delta i) (c i)) st (fun r st' =>
      (Q (r ID1) (r ID0) ∧ r ID2 = r ID1) ∧ Corr ty st') := by
  obtain ⟨a, g', b, e', new, k1, k2, k3, -, k5⟩ := hc.adequate (R := R) (YaoNet.hash M) hd.color
    (Garbler.new d (garblerRng st)) (Evaluator.new []) (inStep_new d _ [])
  have k3 := k3 []
  rw [List.append_nil] at k3
  have k2 : g'.blocks = new := k2
  have k3' : (c ID0).run (Evaluator.backend (YaoNet.hash M)) (Evaluator.new new) = _ := k3
  have hst' := corr_garblerSt hst
  refine Spec3 ?_
  simp [evalShared, stateId, hst.id, hst'.id, hd.party1, hd.party2, needDelta, newWithDelta1 d hst,
    newWithDelta2 d hst, h12, k1, gcError, sendCircuit, sendMany, recvMany, sendTo, recvFrom, exactlyOne,
    receiveCircuit, MPC.recv_apply, k2, k3']
  refine ⟨k5, ?_⟩
  have := hst'
  rw [← three_eta (garblerSt st)] at this
  exact this

end Verif.Yao
