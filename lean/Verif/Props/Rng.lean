import Verif.Rep3.History
import Verif.Props.Demo

/-!
# Properties of the correlated randomness: C15, C16, C22
-/

namespace Verif.Props

open PartyID Rep3 Demo

variable {R M Seed : Type} [Sample R Seed] [Seedable R Seed] [Codec M (List Seed)]
  [Codec M (List (Seed × Seed))]

/-- Specification: whatever the parties mask next, the masks cancel out. First the mask of one
element of any additive group (field and ring elements, curve points), then vectors of masks drawn
element by element or at once, then XOR masks. -/
structure MasksCancel (st : PartyID → Rep3State R) : Prop where
  additive : ∀ (α : Type) [AddCommGroup α] [Sample R α],
    let m := fun i => ((st i).rngs.rand.masking (α := α)).1
    m ID0 + m ID1 + m ID2 = 0
  vec : ∀ (α : Type) [AddCommGroup α] [Sample R α] (n k : Nat) (_ : k < n),
    let m := fun i => ((st i).rngs.rand.maskingVec (α := α) n).1[k]?
    ∃ a b c, m ID0 = some a ∧ m ID1 = some b ∧ m ID2 = some c ∧ a + b + c = 0
  fieldVec : ∀ (α : Type) [AddCommGroup α] [SampleVec R α] (n k : Nat) (_ : k < n),
    let m := fun i => ((st i).rngs.rand.maskingFieldVec (α := α) n).1[k]?
    ∃ a b c, m ID0 = some a ∧ m ID1 = some b ∧ m ID2 = some c ∧ a + b + c = 0
  xor : ∀ (w : Nat) [Sample R (BitVec w)],
    let m := fun i =>
      let p := ((st i).rngs.rand.randomPair (α := BitVec w)).1
      p.1 ^^^ p.2
    m ID0 ^^^ m ID1 ^^^ m ID2 = 0#w

theorem xor_cancel3 {w : Nat} (a b c : BitVec w) :
    a ^^^ c ^^^ (b ^^^ a) ^^^ (c ^^^ b) = 0#w := by
  ext i hi
  simp only [BitVec.getElem_xor, BitVec.getElem_zero]
  cases a[i] <;> cases b[i] <;> cases c[i] <;> rfl

omit [Sample R Seed] [Seedable R Seed] in
theorem masksCancel_of_corr {t : A2BType} {st : PartyID → Rep3State R} (h : Corr t st) :
    MasksCancel st where
  additive α _ _ := by
    simp [Rep3Rand.masking, Rep3Rand.randomPair, h.rand]
  vec α _ _ n k hk := by
    have e : ∀ r : R, ((sampleN (α := α) r n).1).length = n := fun r => sampleN_length r n
    simp only [Rep3Rand.maskingVec, h.rand, ID0_prev, ID1_prev, ID2_prev]
    refine ⟨_, _, _, List.getElem?_eq_getElem (by simp [hk]),
      List.getElem?_eq_getElem (by simp [hk]), List.getElem?_eq_getElem (by simp [hk]), ?_⟩
    simp
  fieldVec α _ _ n k hk := by
    simp only [Rep3Rand.maskingFieldVec, h.rand, ID0_prev, ID1_prev, ID2_prev]
    refine ⟨_, _, _, List.getElem?_eq_getElem (by simp [SampleVec.length_eq, hk]),
      List.getElem?_eq_getElem (by simp [SampleVec.length_eq, hk]),
      List.getElem?_eq_getElem (by simp [SampleVec.length_eq, hk]), ?_⟩
    simp
  xor w _ := by
    simp only [Rep3Rand.randomPair, h.rand, ID0_prev, ID1_prev, ID2_prev]
    exact xor_cancel3 _ _ _

/-- C15: start three parties in any way, let them set up their states over the network under any
schedule and then make any history of joint randomness requests and forks: no request panics and at
the end all masks cancel. -/
theorem C15_never_drifts (rng : PartyID → R) (t : A2BType) (st : PartyID → Rep3State R) :
    Ensures (M := M) (fun i => newState Seed (rng i) t) st (fun r _ =>
      ∀ history : List (RngOp R), ∃ r', RngOp.runs Seed r history = some r' ∧ MasksCancel r') := by
  refine (spec_newState.mono ?_).ensures
  rintro r _ ⟨h, -⟩ os
  obtain ⟨r', h1, h2⟩ := RngOp.runs_corr (Seed := Seed) h os
  exact ⟨r', h1, masksCancel_of_corr h2⟩

omit [Codec M (List Seed)] [Codec M (List (Seed × Seed))] in
/-- C15 from any synchronised states. -/
theorem C15_history {t : A2BType} {st : PartyID → Rep3State R} (h : Corr t st)
    (history : List (RngOp R)) :
    ∃ st', RngOp.runs Seed st history = some st' ∧ Corr t st' ∧ MasksCancel st' := by
  obtain ⟨r', h1, h2⟩ := RngOp.runs_corr (Seed := Seed) h history
  exact ⟨r', h1, h2, masksCancel_of_corr h2⟩

/-- a history with several kinds of requests and a fork -/
example : ∃ st', RngOp.runs Nat states [.pair F7 inferInstance, .forkChild,
    .bitcomp1 Nat inferInstance, .oneSided F7 inferInstance ID1, .forkParent,
    .shared Nat inferInstance] = some st' ∧ Corr .direct st' ∧ MasksCancel st' :=
  C15_history corr_states _

/-- C16: after setup the second pairwise generator of each party is the first one of the previous
party; the three bit-composition generators of parties 1 and 2 (first group) and of parties 0 and 2
(second group) are the same three generators in the order the protocols expect; every party knows its
own id and the chosen conversion type. -/
theorem C16_setup (rng : PartyID → R) (t : A2BType) (st : PartyID → Rep3State R) :
    Ensures (M := M) (fun i => newState Seed (rng i) t) st (fun r _ =>
      (∀ i, (r i).id = i ∧ (r i).a2bType = t) ∧
      (∀ i, (r i).rngs.rand.rng2 = (r i.prev).rngs.rand.rng1) ∧
      (∃ k1 k2 k3, (r ID1).rngs.bitcomp1 = ⟨k1, k2, some k3⟩ ∧
        (r ID2).rngs.bitcomp1 = ⟨k2, k3, some k1⟩ ∧ (r ID0).rngs.bitcomp1.rng2 = k2) ∧
      (∃ l1 l2 l3, (r ID0).rngs.bitcomp2 = ⟨l1, l2, some l3⟩ ∧
        (r ID2).rngs.bitcomp2 = ⟨l3, l1, some l2⟩)) := by
  refine (spec_newState.mono ?_).ensures
  rintro r _ ⟨h, hs⟩
  refine ⟨fun i => ⟨h.id i, h.a2b i⟩, h.rand, ?_, ?_⟩
  · have h1 := h.bc1a
    have h2 := h.bc1b
    have h3 := h.bc1c
    have h4 : (r ID0).rngs.bitcomp1.rng2 = (r ID1).rngs.bitcomp1.rng2 := hs
    rw [h4]
    cases hx : (r ID1).rngs.bitcomp1
    cases hy : (r ID2).rngs.bitcomp1
    simp only [hx, hy] at h1 h2 h3
    subst h1 h2 h3
    exact ⟨_, _, _, rfl, rfl, rfl⟩
  · have h1 := h.bc2a
    have h2 := h.bc2b
    have h3 := h.bc2c
    cases hx : (r ID0).rngs.bitcomp2
    cases hy : (r ID2).rngs.bitcomp2
    simp only [hx, hy] at h1 h2 h3
    subst h1 h2 h3
    exact ⟨_, _, _, rfl, rfl⟩

example : Ensures (M := Msg) (fun i => newState Nat (three 1 2 3 i) .yao) states (fun r _ =>
    (∀ i, (r i).id = i ∧ (r i).a2bType = .yao) ∧
      (∀ i, (r i).rngs.rand.rng2 = (r i.prev).rngs.rand.rng1)) :=
  (C16_setup (three 1 2 3) .yao states).mono fun _ _ h => ⟨h.1, h.2.1⟩

/-- Specification: `generate_shared` yields the same value at all parties. -/
def SharedAgrees (α : Type) [Sample R α] (st : PartyID → Rep3State R) : Prop :=
  ∀ i j, ((st i).rngs.generateShared (α := α) i).1 = ((st j).rngs.generateShared (α := α) j).1

/-- C22, proved part: after setup and any history in which no value is converted with the first
bit-composition generators (that is, no `b2a` or `y2a` has run), `generate_shared` agrees at all
parties. Missing: histories with such conversions, for which the claim is false
(`C22_false_after_b2a`). -/
theorem C22_generate_shared_partial (rng : PartyID → R) (t : A2BType) (st : PartyID → Rep3State R)
    (α : Type) [Sample R α] :
    Ensures (M := M) (fun i => newState Seed (rng i) t) st (fun r _ =>
      ∀ history : List (RngOp R), (∀ o ∈ history, o.NoBitcomp1) →
        ∃ r', RngOp.runs Seed r history = some r' ∧ SharedAgrees α r') := by
  refine (spec_newState.mono ?_).ensures
  rintro r _ ⟨h, hs⟩ os hos
  obtain ⟨r', h1, h2⟩ := RngOp.runs_corr (Seed := Seed) h os
  refine ⟨r', h1, ?_⟩
  have h3 : (r' ID0).rngs.bitcomp1.rng2 = (r' ID1).rngs.bitcomp1.rng2 :=
    RngOp.runs_sharedSync hs os hos h1
  have h4 := h2.bc1b
  intro i j
  cases i <;> cases j <;> simp [CorrelatedRng.generateShared, h3, h4]

omit [Codec M (List Seed)] [Codec M (List (Seed × Seed))] in
/-- The two parties that draw in a conversion keep agreeing with each other after any history. -/
theorem C22_parties_one_two_agree {t : A2BType} {st : PartyID → Rep3State R} (h : Corr t st)
    (history : List (RngOp R)) (α : Type) [Sample R α] :
    ∃ st', RngOp.runs Seed st history = some st' ∧
      ((st' ID1).rngs.generateShared (α := α) ID1).1 =
        ((st' ID2).rngs.generateShared (α := α) ID2).1 := by
  obtain ⟨r', h1, h2⟩ := RngOp.runs_corr (Seed := Seed) h history
  exact ⟨r', h1, by simp [CorrelatedRng.generateShared, h2.bc1b]⟩

/-- C22 is false in general: for every start of the parties (with counters as generators) all parties
agree after setup, and after one conversion that draws from the first bit-composition generators
party 0 disagrees with the others (finding F1 in DESIGN.md). -/
theorem C22_false_after_b2a (rng : PartyID → Nat) (st : PartyID → Rep3State Nat) :
    Ensures (M := Msg) (fun i => newState Nat (rng i) .direct) st (fun r _ =>
      SharedAgrees Nat r ∧
      ∃ r', RngOp.runs Nat r [.bitcomp1 F7 inferInstance] = some r' ∧ ¬ SharedAgrees Nat r') := by
  refine (spec_newState.mono ?_).ensures
  rintro r _ ⟨h, hs⟩
  have h3 : (r ID0).rngs.bitcomp1.rng2 = (r ID1).rngs.bitcomp1.rng2 := hs
  have h4 := h.bc1b
  refine ⟨fun i j => ?_, ?_⟩
  · cases i <;> cases j <;> simp [CorrelatedRng.generateShared, h3, h4]
  · simp only [RngOp.runs, RngOp.run, BitComp.random3, h.bc1a, h.bc1c, Option.pure_def,
      Option.bind_eq_bind, Option.bind_some]
    refine ⟨_, rfl, fun hc => ?_⟩
    have := hc ID0 ID1
    simp [CorrelatedRng.generateShared, RngOp.upd, h3] at this
    exact absurd this (Nat.ne_of_lt (Nat.lt_succ_self _))

end Verif.Props
