import Verif.Yao.ConvLemmas

/-!
# Rules for streaming garblers and evaluators
-/

namespace Verif.Yao

open PartyID
open Verif.Rep3
open Verif.Yao.Circ

variable {R M : Type} [YaoRng R] [YaoNet M] {d : Label} {α β γ : Type} {Q : α → β → Prop}

/-- The streaming evaluator is in step with the garbler. -/
structure SInStep (d : Label) (g : Garbler R) (e : StreamEvaluator) : Prop where
  delta : g.delta = d
  gate : g.currentGate = e.currentGate
  out : g.currentOutput = e.currentOutput
  zero : OptEnc d g.constZero e.constZero false
  one : OptEnc d g.constOne e.constOne true
  recv : e.received = g.blocks

omit [YaoRng R] in
theorem emit1 {s : Rep3State R} (h : s.id = ID1) (bs : List Label) (k : Unit → Rep3M R M γ) :
    (emit bs >>= k : Rep3M R M γ) ID1 s = ((bs.forM fun b => sendTo ID0 b) >>= k : Rep3M R M γ) ID1 s := by
  simp [emit, stateId, h]

omit [YaoRng R] in
theorem emit2 {s : Rep3State R} (h : s.id = ID2) (bs : List Label) (k : Unit → Rep3M R M γ) :
    (emit bs >>= k : Rep3M R M γ) ID2 s = k () ID2 s := by
  simp [emit, stateId, h]

theorem stream_circ (hd : d.color = true) {c : Circ Label α} {c' : Circ Label β} (h : CSpec (Enc d) Q c c')
    (g : Garbler R) (e : StreamEvaluator) (hge : SInStep d g e) :
    ∃ a g' b e', c.run (Garbler.backend (YaoNet.hash M)) g = .ok (a, g') ∧ SInStep d g' e' ∧ Q a b ∧
      ∀ {s0 s1 s2 : Rep3State R} (_ : s1.id = ID1) (_ : s2.id = ID2)
        (k0 : β × StreamEvaluator → Rep3M R M γ) (k1 k2 : α × Garbler R → Rep3M R M γ) (P),
        W3 P (k0 (b, e') ID0 s0) (k1 (a, g') ID1 s1) (k2 (a, g') ID2 s2) [] [] [] [] [] [] →
        W3 P ((streamEvaluate c' e >>= k0) ID0 s0) ((streamGarble c g >>= k1) ID1 s1)
          ((streamGarble c g >>= k2) ID2 s2) [] [] [] [] [] [] := by
  induction h generalizing g e with
  | ret h =>
    refine ⟨_, g, _, e, rfl, hge, h, ?_⟩
    intro s0 s1 s2 _ _ k0 k1 k2 P hP
    simpa [streamEvaluate, streamGarble] using hP
  | @and a b a' b' x y k k' ha hb _ ih =>
    obtain ⟨a₂, g₂, b₂, e₂, h1, h2, h3, h4⟩ := ih ((g.and (YaoNet.hash M) a b).1)
      (evaluateAndGate (YaoNet.hash M) e.currentGate a' b'
        (garbleAndGate (YaoNet.hash M) g.currentGate a b g.delta).1
        (garbleAndGate (YaoNet.hash M) g.currentGate a b g.delta).2.1)
      (by
        simp only [Garbler.and]
        rw [hge.delta, hge.gate]
        exact andGate hd _ _ ha hb) (g.and (YaoNet.hash M) a b).2
      { e with
        currentGate := e.currentGate + 1
        received := e.received ++ [(garbleAndGate (YaoNet.hash M) g.currentGate a b g.delta).1] ++
          [(garbleAndGate (YaoNet.hash M) g.currentGate a b g.delta).2.1] }
      ⟨hge.delta, by simp [Garbler.and, Garbler.addBlock, hge.gate], hge.out, hge.zero, hge.one,
        by simp [Garbler.and, Garbler.addBlock, hge.recv]⟩
    refine ⟨a₂, g₂, b₂, e₂, h1, h2, h3, ?_⟩
    intro s0 s1 s2 i1 i2 k0 k1 k2 P hP
    have := h4 i1 i2 k0 k1 k2 P hP
    simp [streamEvaluate, streamGarble, streamOp, emit, stateId, i1, i2, StreamEvaluator.and, receiveBlock,
      Garbler.and, Garbler.addBlock, sendTo, recvFrom, sendMany, recvMany, exactlyOne, MPC.recv_apply] at this ⊢
    exact this
  | xor ha hb _ ih =>
    obtain ⟨a₂, g₂, b₂, e₂, h1, h2, h3, h4⟩ := ih _ _ (enc_xor ha hb) g e hge
    exact ⟨a₂, g₂, b₂, e₂, h1, h2, h3, h4⟩
  | negate ha _ ih =>
    obtain ⟨a₂, g₂, b₂, e₂, h1, h2, h3, h4⟩ := ih (g.delta ^^^ _) _ (by rw [hge.delta]; exact enc_not ha) g e hge
    exact ⟨a₂, g₂, b₂, e₂, h1, h2, h3, h4⟩
  | @zero k k' _ ih =>
    have hz := hge.zero
    rcases hg : g.constZero with _ | z <;> rcases he : e.constZero with _ | z'
    · set blk := (Sample.sample (α := Label) g.rng).1 ^^^ g.delta.cmul false with hblk
      have hs : SInStep d (g.getZero).2 { e with received := e.received ++ [blk], constZero := some blk } := by
        simp only [Garbler.getZero, hg, Garbler.constant, Garbler.addBlock, hblk]
        exact ⟨hge.delta, hge.gate, hge.out, by simp only [OptEnc, Enc, hge.delta], hge.one,
          by rw [hge.recv]⟩
      obtain ⟨a₂, g₂, b₂, e₂, h1, h2, h3, h4⟩ := ih g.getZero.1 blk
        (by simp only [Garbler.getZero, hg, Garbler.constant, Garbler.addBlock, Enc, hblk, hge.delta]) _ _ hs
      refine ⟨a₂, g₂, b₂, e₂, h1, h2, h3, ?_⟩
      intro s0 s1 s2 i1 i2 k0 k1 k2 P hP
      have := h4 i1 i2 k0 k1 k2 P hP
      simp [streamEvaluate, streamGarble, streamOp, emit, stateId, i1, i2, StreamEvaluator.getZero, he,
        Garbler.getZero, hg, Garbler.constant, Garbler.addBlock, receiveBlock, sendTo, recvFrom, sendMany,
        recvMany, exactlyOne, MPC.recv_apply] at this ⊢
      exact this
    · rw [hg, he] at hz; exact hz.elim
    · rw [hg, he] at hz; exact hz.elim
    · rw [hg, he] at hz
      obtain ⟨a₂, g₂, b₂, e₂, h1, h2, h3, h4⟩ := ih z z' hz g e hge
      refine ⟨a₂, g₂, b₂, e₂, ?_, h2, h3, ?_⟩
      · show Circ.run _ (k g.getZero.1) g.getZero.2 = _
        simpa [Garbler.getZero, hg] using h1
      · intro s0 s1 s2 i1 i2 k0 k1 k2 P hP
        have := h4 i1 i2 k0 k1 k2 P hP
        simpa [streamEvaluate, streamGarble, streamOp, emit, stateId, i1, i2, StreamEvaluator.getZero, he,
          Garbler.getZero, hg] using this
  | @one k k' _ ih =>
    have hz := hge.one
    rcases hg : g.constOne with _ | z <;> rcases he : e.constOne with _ | z'
    · set blk := (Sample.sample (α := Label) g.rng).1 ^^^ g.delta.cmul true with hblk
      have hs : SInStep d (g.getOne).2 { e with received := e.received ++ [blk], constOne := some blk } := by
        simp only [Garbler.getOne, hg, Garbler.constant, Garbler.addBlock, hblk]
        exact ⟨hge.delta, hge.gate, hge.out, hge.zero, by simp only [OptEnc, Enc, hge.delta],
          by rw [hge.recv]⟩
      obtain ⟨a₂, g₂, b₂, e₂, h1, h2, h3, h4⟩ := ih g.getOne.1 blk
        (by simp only [Garbler.getOne, hg, Garbler.constant, Garbler.addBlock, Enc, hblk, hge.delta]) _ _ hs
      refine ⟨a₂, g₂, b₂, e₂, h1, h2, h3, ?_⟩
      intro s0 s1 s2 i1 i2 k0 k1 k2 P hP
      have := h4 i1 i2 k0 k1 k2 P hP
      simp [streamEvaluate, streamGarble, streamOp, emit, stateId, i1, i2, StreamEvaluator.getOne, he,
        Garbler.getOne, hg, Garbler.constant, Garbler.addBlock, receiveBlock, sendTo, recvFrom, sendMany,
        recvMany, exactlyOne, MPC.recv_apply] at this ⊢
      exact this
    · rw [hg, he] at hz; exact hz.elim
    · rw [hg, he] at hz; exact hz.elim
    · rw [hg, he] at hz
      obtain ⟨a₂, g₂, b₂, e₂, h1, h2, h3, h4⟩ := ih z z' hz g e hge
      refine ⟨a₂, g₂, b₂, e₂, ?_, h2, h3, ?_⟩
      · show Circ.run _ (k g.getOne.1) g.getOne.2 = _
        simpa [Garbler.getOne, hg] using h1
      · intro s0 s1 s2 i1 i2 k0 k1 k2 P hP
        have := h4 i1 i2 k0 k1 k2 P hP
        simpa [streamEvaluate, streamGarble, streamOp, emit, stateId, i1, i2, StreamEvaluator.getOne, he,
          Garbler.getOne, hg] using this

theorem stream_outputs {as bs : List Label} {xs : List Bool} (h : All3 (Enc d) as bs xs)
    (g : Garbler R) (e : StreamEvaluator) (hge : SInStep d g e)
    (hok : ∀ i (hi : i < as.length), OutputOk (YaoNet.hash M) d (g.currentOutput + i) as[i]) :
    ∃ g' e', SInStep d g' e' ∧
      ∀ {s0 s1 s2 : Rep3State R} (_ : s1.id = ID1) (_ : s2.id = ID2)
        (k0 : List Bool × StreamEvaluator → Rep3M R M γ) (k1 k2 : Garbler R → Rep3M R M γ) (P),
        W3 P (k0 (xs, e') ID0 s0) (k1 g' ID1 s1) (k2 g' ID2 s2) [] [] [] [] [] [] →
        W3 P ((streamDecode bs e >>= k0) ID0 s0) ((streamOutputs as g >>= k1) ID1 s1)
          ((streamOutputs as g >>= k2) ID2 s2) [] [] [] [] [] [] := by
  induction h generalizing g e γ with
  | nil =>
    refine ⟨g, e, hge, ?_⟩
    intro s0 s1 s2 _ _ k0 k1 k2 P hP
    simpa [streamDecode, streamOutputs] using hP
  | @cons a b x as bs xs ha _ ih =>
    have h0 : OutputOk (YaoNet.hash M) d g.currentOutput a := hok 0 (by simp)
    have hs : SInStep d (g.output (YaoNet.hash M) a)
        { e with
          currentOutput := e.currentOutput + 1
          received := e.received ++ [YaoNet.hash M (.output g.currentOutput false) (a ^^^ g.delta.cmul false)] ++
            [YaoNet.hash M (.output g.currentOutput true) (a ^^^ g.delta.cmul true)] } :=
      ⟨hge.delta, hge.gate, by simp [Garbler.output, Garbler.addBlock, hge.out], hge.zero, hge.one,
        by simp [Garbler.output, Garbler.addBlock, hge.recv]⟩
    obtain ⟨g₂, e₂, h2, h3⟩ := ih (γ := γ) _ _ hs (by
      intro i hi
      have := hok (i + 1) (by simpa using hi)
      simpa [Garbler.output, Garbler.addBlock, Nat.add_assoc, Nat.add_comm, Nat.add_left_comm] using this)
    refine ⟨g₂, e₂, h2, ?_⟩
    intro s0 s1 s2 i1 i2 k0 k1 k2 P hP
    have h3 := h3 i1 i2 (fun z => k0 (x :: z.1, z.2)) k1 k2 P hP
    have e2 : ∀ u : Label, u ^^^ (0 : Label) = u := fun u => BitVec.xor_zero
    unfold OutputOk at h0
    have hb : b = a ^^^ d.cmul x := ha
    have hx : (YaoNet.hash M (.output e.currentOutput false) b =
        YaoNet.hash M (.output g.currentOutput false) (a ^^^ g.delta.cmul false)) = (x = false) := by
      rw [hb, hge.delta, ← hge.out]
      cases x
      · simp [cmul_false]
      · simp only [cmul_true, cmul_false, e2]
        simpa using h0
    have hx' : x = true → YaoNet.hash M (.output e.currentOutput true) b =
        YaoNet.hash M (.output g.currentOutput true) (a ^^^ g.delta.cmul true) := by
      rintro rfl
      rw [hb, hge.delta, ← hge.out]
    cases x
    · simp only [eq_self_iff_true] at hx
      have hx := of_eq_true hx
      simp [streamDecode, streamOutputs, emit, stateId, i1, i2, receiveBlock, sendTo, recvFrom, sendMany,
        recvMany, exactlyOne, MPC.recv_apply, Garbler.output, Garbler.addBlock] at h3 ⊢
      simp [hx, Prog.bind_assoc] at h3 ⊢
      exact h3
    · have hx' := hx' rfl
      have hx : ¬ (YaoNet.hash M (.output e.currentOutput false) b =
          YaoNet.hash M (.output g.currentOutput false) (a ^^^ g.delta.cmul false)) := by
        rw [hx]; simp
      simp [streamDecode, streamOutputs, emit, stateId, i1, i2, receiveBlock, sendTo, recvFrom, sendMany,
        recvMany, exactlyOne, MPC.recv_apply, Garbler.output, Garbler.addBlock] at h3 ⊢
      simp [hx, hx', Prog.bind_assoc] at h3 ⊢
      exact h3

theorem stream_send (bs : List Label) {s0 s1 : Rep3State R} {p2 : Prog PartyID M Err (γ × Rep3State R)}
    (k0 : Unit → Rep3M R M γ) (k1 : List Label → Rep3M R M γ) (P)
    (h : W3 P (k0 () ID0 s0) (k1 bs ID1 s1) p2 [] [] [] [] [] []) :
    W3 P (((bs.forM fun b => sendTo ID1 b) >>= k0) ID0 s0) ((readBlocks bs.length >>= k1) ID1 s1) p2
      [] [] [] [] [] [] := by
  induction bs generalizing k1 with
  | nil => simpa [readBlocks] using h
  | cons b bs ih =>
    have := ih (fun l => k1 (b :: l)) h
    simpa [readBlocks, sendTo, recvFrom, sendMany, recvMany, exactlyOne, MPC.recv_apply, Prog.bind_assoc] using this

variable {ty : A2BType} {st : PartyID → Rep3State R}

omit [YaoRng R] in
/-- A streaming evaluator at the start. -/
theorem newStreamEvaluator_apply (s : Rep3State R) (k : StreamEvaluator → Rep3M R M γ) :
    (newStreamEvaluator >>= k) ID0 s = k ⟨0, 0, [], none, none⟩ ID0 s := by
  simp [newStreamEvaluator]

theorem sInStep_new (d : Label) (rng : R) : SInStep d (Garbler.new d rng) ⟨0, 0, [], none, none⟩ :=
  ⟨rfl, rfl, rfl, trivial, trivial, rfl⟩

theorem spec_evalSharedStreaming {α : Type} {delta : PartyID → Option Label} {d : Label} (hd : IsDelta delta d)
    {c : PartyID → Circ Label α} {Q : α → α → Prop} (hc : CSpec (Enc d) Q (c ID1) (c ID0))
    (h12 : c ID2 = c ID1) (hst : Corr ty st) :
    Spec (M := M) (fun i => evalSharedStreaming (delta i) (c i)) st (fun r st' =>
      (Q (r ID1) (r ID0) ∧ r ID2 = r ID1) ∧ Corr ty st') := by
  have hst' := corr_garblerSt hst
  obtain ⟨a, g', b, e', -, hs, hq, hk⟩ := stream_circ (M := M) (R := R) (γ := α) hd.color hc
    (Garbler.new d (garblerRng st)) ⟨0, 0, [], none, none⟩ (sInStep_new d _)
  refine Spec3 ?_
  have i1 := hst'.id ID1
  have i2 := hst'.id ID2
  have := hk (s0 := st ID0) i1 i2 (fun r => receiveHash r.2.received >>= fun _ => pure r.1)
    (fun r => sendHash r.2.blocks >>= fun _ => pure r.1) (fun r => sendHash r.2.blocks >>= fun _ => pure r.1)
    (fun a b c => (Q (three a.1 b.1 c.1 ID1) (three a.1 b.1 c.1 ID0) ∧
      three a.1 b.1 c.1 ID2 = three a.1 b.1 c.1 ID1) ∧ Corr ty (three a.2 b.2 c.2)) (by
        simp [receiveHash, sendHash, stateId, i1, i2, sendTo, recvFrom, sendMany, recvMany, exactlyOne,
          MPC.recv_apply, hs.recv]
        refine ⟨hq, ?_⟩
        have := hst'
        rw [← three_eta (garblerSt st)] at this
        exact this)
  simpa [evalSharedStreaming, newStreamEvaluator, stateId, hst.id, hd.party1, hd.party2, needDelta,
    newWithDelta1 d hst, newWithDelta2 d hst, h12, Prog.bind_assoc] using this

theorem spec_evalOpen01Streaming {delta : PartyID → Option Label} {d : Label} (hd : IsDelta delta d)
    {c : PartyID → Circ Label (List Label)} {bits : List Bool}
    (hc : CSpec (Enc d) (fun r r' => All3 (Enc d) r r' bits) (c ID1) (c ID0)) (h12 : c ID2 = c ID1)
    (hst : Corr ty st)
    (hdec : Spec (M := M) (fun i => outputLabels (delta i) (c i)) st (fun r _ =>
      Separated (YaoNet.hash M) (r ID1))) :
    Spec (M := M) (fun i => evalOpen01Streaming (delta i) (c i)) st (fun r st' =>
      r = three (some bits) (some bits) none ∧ Corr ty st') := by
  have hst' := corr_garblerSt hst
  have hcor : Corr ty (three (st ID0) (garblerSt st ID1) (garblerSt st ID2)) := by
    have := hst'
    rw [← three_eta (garblerSt st)] at this
    exact this
  obtain ⟨a, g', b, e', k1, hs, hq, hk⟩ := stream_circ (M := M) (R := R) (γ := Option (List Bool)) hd.color hc
    (Garbler.new d (garblerRng st)) ⟨0, 0, [], none, none⟩ (sInStep_new d _)
  have hdec := decodable_of_spec hd hc h12 hst hdec k1
  have ho : g'.currentOutput = 0 := run_currentOutput (YaoNet.hash M) (c ID1) _ _ _ k1
  obtain ⟨g₂, e₂, hs₂, hk₂⟩ := stream_outputs (M := M) (γ := Option (List Bool)) hq g' e' hs (by
    intro i hi
    rw [ho, Nat.zero_add]
    exact hdec i hi)
  have i1 := hst'.id ID1
  have i2 := hst'.id ID2
  have hdb := decodeBlocks_enc (ne_zero_of_color hd.color) hq
  have hlen : a.length = b.length := by rw [hq.len, hq.len']
  refine Spec3 ?_
  have := hk (s0 := st ID0) i1 i2
    (fun r => do
      let z ← streamDecode r.1 r.2
      receiveHash z.2.received
      r.1.forM fun b => sendTo ID1 b
      pure (some z.1))
    (fun r => do
      let g ← streamOutputs r.1 r.2
      sendHash g.blocks
      let blocks ← readBlocks r.1.length
      let bits ← orFail (decodeBlocks g.delta blocks r.1)
      pure (some bits))
    (fun r => do
      let g ← streamOutputs r.1 r.2
      sendHash g.blocks
      pure none)
    (fun a b c => three a.1 b.1 c.1 = three (some bits) (some bits) none ∧ Corr ty (three a.2 b.2 c.2)) (by
      refine hk₂ i1 i2
        (fun z => do
          receiveHash z.2.received
          b.forM fun b => sendTo ID1 b
          pure (some z.1))
        (fun g => do
          sendHash g.blocks
          let blocks ← readBlocks a.length
          let bits ← orFail (decodeBlocks g.delta blocks a)
          pure (some bits))
        (fun g => do
          sendHash g.blocks
          pure none) _ ?_
      have := stream_send (M := M) b (s0 := st ID0) (s1 := garblerSt st ID1)
        (p2 := .ret ((none : Option (List Bool)), garblerSt st ID2))
        (fun _ => pure (some bits)) (fun blocks => do
          let bits ← orFail (decodeBlocks g₂.delta blocks a)
          pure (some bits))
        (fun a b c => three a.1 b.1 c.1 = three (some bits) (some bits) none ∧ Corr ty (three a.2 b.2 c.2)) (by
          simp [hs₂.delta, hdb, orFail, hcor])
      simpa [receiveHash, sendHash, stateId, i1, i2, sendTo, recvFrom, sendMany, recvMany, exactlyOne,
          MPC.recv_apply, hs₂.recv, hlen] using this)
  simpa [evalOpen01Streaming, newStreamEvaluator, stateId, hst.id, hd.party1, hd.party2, needDelta,
    newWithDelta1 d hst, newWithDelta2 d hst, h12, Prog.bind_assoc] using this

/-! ### Conversions -/

variable {w p : Nat} [NeZero p]

theorem spec_a2yStreamingOf {α : Type} [AddCommGroup α] {W : WireType α} (hW : W.Lawful) {x : PartyID → Share α}
    {v : α} (hx : IsShare x v)
    {delta : PartyID → Option Label} {d : Label} (hd : IsDelta delta d) (hst : Corr ty st) :
    Spec (M := M) (fun i => a2yStreamingOf W (x i) (delta i)) st (fun r st' =>
      IsYShare d r (W.bits v) ∧ Corr ty st') := by
  refine (spec_added hW hx hd hst).bind ?_
  rintro r st' ⟨⟨hc, e⟩, hst'⟩
  refine (spec_evalSharedStreaming (c := fun i => W.add (r i).1 (r i).2) hd hc e hst').mono ?_
  rintro y st'' ⟨⟨hy, e⟩, h⟩
  exact ⟨isYShare_iff.2 ⟨hy, e⟩, h⟩

theorem spec_a2yStreaming (hp : p % 2 = 1) {x : PartyID → Share (ZMod p)} {v : ZMod p} (hx : IsShare x v)
    {delta : PartyID → Option Label} {d : Label} (hd : IsDelta delta d) (hst : Corr ty st) :
    Spec (M := M) (fun i => a2yStreaming (x i) (delta i)) st (fun r st' =>
      IsYShare d r (fieldBits v) ∧ Corr ty st') := spec_a2yStreamingOf (fieldType_lawful hp) hx hd hst

section

variable {α : Type} [AddCommGroup α] [Sample R α] {W : WireType α}

theorem spec_y2aLabels (hW : W.Lawful) {y : PartyID → List Label} {v : α}
    {delta : PartyID → Option Label} {d : Label} (hd : IsDelta delta d) (hy : IsYShare d y (W.bits v))
    (hst : Corr ty st) :
    Spec (M := M) (fun i => y2aLabels W (y i) (delta i)) st (fun r _ => ∃ zs, r ID1 = (some d, zs)) := by
  refine (spec_y2aCirc (M := M) hW hd hy hst).bind ?_
  rintro r st' ⟨⟨c2, c3, hr, hc, e⟩, hst'⟩
  refine (spec_outputLabels (c := fun i => W.add (y i) (r i).2) hd hc e hst').mono ?_
  rintro r - ⟨zs, g', -, e⟩
  exact ⟨zs, e⟩

theorem spec_y2aStreamingOf (hW : W.Lawful) {ofBits : List Bool → Except Err α}
    (hof : ∀ v, ofBits (W.bits v) = .ok v) {y : PartyID → List Label} {v : α}
    {delta : PartyID → Option Label} {d : Label} (hd : IsDelta delta d) (hy : IsYShare d y (W.bits v))
    (hst : Corr ty st)
    (hdec : Spec (M := M) (fun i => y2aLabels W (y i) (delta i)) st (fun r _ =>
      Separated (YaoNet.hash M) (r ID1))) :
    Spec (M := M) (fun i => y2aStreamingOf W ofBits (y i) (delta i)) st (fun r st' =>
      IsShare r v ∧ Corr ty st') := by
  have hin := Spec.bind_inv (spec_y2aCirc (M := M) hW hd hy hst) (by
    rintro r st' ⟨⟨c2, c3, hr, hc, e⟩, hst'⟩
    exact (spec_outputLabels (c := fun i => W.add (y i) (r i).2) hd hc e hst').mono fun _ _ _ => trivial) hdec
  refine hin.bind ?_
  rintro r st' ⟨⟨⟨c2, c3, hr, hc, e⟩, hst'⟩, hdec⟩
  refine (spec_evalOpen01Streaming (c := fun i => W.add (y i) (r i).2) hd hc e hst' hdec).bind ?_
  rintro x1 st'' ⟨rfl, hst''⟩
  exact spec_y2aFinish hof hr hst''

/-- Through wires that carry an element. -/
theorem spec_b2yW (hW : W.Lawful) {n : Nat} {x : PartyID → Share (BitVec w)} {v : BitVec w} {u : α}
    (hx : IsBShare x v) (hu : uintToBits v.toNat n = W.bits u) (hst : Corr ty st)
    {Q : (PartyID → Share α) → (PartyID → Rep3State R) → Prop} {f : PartyID → List Label → Option Label → Rep3M R M (Share α)}
    (hf : ∀ {y : PartyID → List Label} {delta : PartyID → Option Label} {d : Label} {st},
      IsDelta delta d → IsYShare d y (W.bits u) → Corr ty st →
      Spec (M := M) (fun i => y2aLabels W (y i) (delta i)) st (fun r _ => Separated (YaoNet.hash M) (r ID1)) →
      Spec (M := M) (fun i => f i (y i) (delta i)) st Q)
    (hdec : Spec (M := M) (fun i => do
      let delta ← generateRandomGarblerDelta
      let y ← b2yOf n (x i) delta
      y2aLabels W y delta) st (fun r _ => Separated (YaoNet.hash M) (r ID1))) :
    Spec (M := M) (fun i => do
      let delta ← generateRandomGarblerDelta
      let y ← b2yOf n (x i) delta
      f i y delta) st Q := by
  have h1 := Spec.bind_inv (spec_delta (M := M) hst) (by
    rintro delta st' ⟨⟨d, hd⟩, hst'⟩
    refine (spec_b2yOf (n := n) hx hd hst').bind ?_
    rintro y st'' ⟨hy, hst''⟩
    rw [hu] at hy
    exact (spec_y2aLabels hW hd hy hst'').mono fun _ _ _ => trivial) hdec
  refine h1.bind ?_
  rintro delta st' ⟨⟨⟨d, hd⟩, hst'⟩, hdec⟩
  have h2 := Spec.bind_inv (spec_b2yOf (M := M) (n := n) hx hd hst') (by
    rintro y st'' ⟨hy, hst''⟩
    rw [hu] at hy
    exact (spec_y2aLabels hW hd hy hst'').mono fun _ _ _ => trivial) hdec
  refine h2.bind ?_
  rintro y st'' ⟨⟨hy, hst''⟩, hdec⟩
  rw [hu] at hy
  exact hf hd hy hst'' hdec

end

section

variable [Sample R (ZMod p)]

theorem spec_y2aStreaming (hp : p % 2 = 1) (hw : modBits p ≤ w) {y : PartyID → List Label} {v : ZMod p}
    {delta : PartyID → Option Label} {d : Label} (hd : IsDelta delta d) (hy : IsYShare d y (fieldBits v))
    (hst : Corr ty st)
    (hdec : Spec (M := M) (fun i => y2aLabels (fieldType p) (y i) (delta i)) st (fun r _ =>
      Separated (YaoNet.hash M) (r ID1))) :
    Spec (M := M) (fun i => y2aStreaming (p := p) w (y i) (delta i)) st (fun r st' =>
      IsShare r v ∧ Corr ty st') :=
  spec_y2aStreamingOf (fieldType_lawful hp) (bitsToField_fieldBits hw) hd hy hst hdec

/-- The bits of a binary sharing of a field element. -/
theorem uintToBits_field {v : BitVec w} (hv : v.toNat < p) :
    uintToBits v.toNat (modBits p) = fieldBits (v.toNat : ZMod p) := by
  rw [fieldBits, ZMod.val_natCast, Nat.mod_eq_of_lt hv]

theorem spec_b2y2a (hp : p % 2 = 1) (hw : modBits p ≤ w) {x : PartyID → Share (BitVec w)} {v : BitVec w}
    (hx : IsBShare x v) (hv : v.toNat < p) (hst : Corr ty st)
    (hdec : Spec (M := M) (fun i => b2y2aLabels p (x i)) st (fun r _ => Separated (YaoNet.hash M) (r ID1))) :
    Spec (M := M) (fun i => b2y2a (p := p) (x i)) st (fun r st' => IsShare r (v.toNat : ZMod p) ∧ Corr ty st') :=
  spec_b2yW (fieldType_lawful hp) hx (uintToBits_field hv) hst
    (fun hd hy hst hdec => spec_y2a hp hw hd hy hst hdec) hdec

theorem spec_b2y2aStreaming (hp : p % 2 = 1) (hw : modBits p ≤ w) {x : PartyID → Share (BitVec w)} {v : BitVec w}
    (hx : IsBShare x v) (hv : v.toNat < p) (hst : Corr ty st)
    (hdec : Spec (M := M) (fun i => b2y2aLabels p (x i)) st (fun r _ => Separated (YaoNet.hash M) (r ID1))) :
    Spec (M := M) (fun i => b2y2aStreaming (p := p) (x i)) st (fun r st' =>
      IsShare r (v.toNat : ZMod p) ∧ Corr ty st') :=
  spec_b2yW (fieldType_lawful hp) hx (uintToBits_field hv) hst
    (fun hd hy hst hdec => spec_y2aStreaming hp hw hd hy hst hdec) hdec

end

section

variable [Sample R (BitVec w)] [UintCodec M w]

theorem ofNat_fieldBits (v : ZMod p) : BitVec.ofNat w (val (fieldBits v)) = Uint.ofField w v := by
  rw [val_fieldBits]; rfl

theorem spec_a2y2b (hp : p % 2 = 1) {x : PartyID → Share (ZMod p)} {v : ZMod p} (hx : IsShare x v)
    (hst : Corr ty st) :
    Spec (M := M) (fun i => a2y2b (w := w) (x i)) st (fun r st' => IsBShare r (Uint.ofField w v) ∧ Corr ty st') := by
  refine (spec_delta hst).bind ?_
  rintro delta st' ⟨⟨d, hd⟩, hst'⟩
  refine (spec_a2y hp hx hd hst').bind ?_
  rintro y st'' ⟨hy, hst''⟩
  have := spec_y2b (M := M) (w := w) hd.color hy hst''
  rwa [ofNat_fieldBits] at this

theorem spec_a2y2bStreaming (hp : p % 2 = 1) {x : PartyID → Share (ZMod p)} {v : ZMod p} (hx : IsShare x v)
    (hst : Corr ty st) :
    Spec (M := M) (fun i => a2y2bStreaming (w := w) (x i)) st (fun r st' =>
      IsBShare r (Uint.ofField w v) ∧ Corr ty st') := by
  refine (spec_delta hst).bind ?_
  rintro delta st' ⟨⟨d, hd⟩, hst'⟩
  refine (spec_a2yStreaming hp hx hd hst').bind ?_
  rintro y st'' ⟨hy, hst''⟩
  have := spec_y2b (M := M) (w := w) hd.color hy hst''
  rwa [ofNat_fieldBits] at this

theorem spec_a2y2bMany (hp : p % 2 = 1) {x : PartyID → List (Share (ZMod p))} {vs : List (ZMod p)}
    (hx : IsShares x vs) (hst : Corr ty st) :
    Spec (M := M) (fun i => a2y2bMany (w := w) (x i)) st (fun r st' =>
      IsBShares r (vs.map (Uint.ofField w)) ∧ Corr ty st') := by
  refine (spec_delta hst).bind ?_
  rintro delta st' ⟨⟨d, hd⟩, hst'⟩
  refine (spec_a2yMany hp hx hd hst').bind ?_
  rintro y st'' ⟨hy, hst''⟩
  have := spec_y2bMany (M := M) (w := w) hd.color hy hst''
  simp only [List.map_map, Function.comp_def, ofNat_fieldBits] at this
  exact this

end

/-! ### Hashes that tell the labels of a wire apart -/

/-- The output hash separates any two labels that differ by an offset. -/
theorem separated_of_hash {H : Hash} (hH : HashSeparates H) {d : Label} (hd : d.color = true) (zs : List Label) :
    Separated H (some d, zs) := ⟨d, rfl, fun i _ => hH i _ _ (by simp [color_xor, hd])⟩

theorem separated_y2a {α : Type} [AddCommGroup α] [Sample R α] {W : WireType α}
    (hH : HashSeparates (YaoNet.hash M)) (hW : W.Lawful) {y : PartyID → List Label} {v : α}
    {delta : PartyID → Option Label} {d : Label} (hd : IsDelta delta d) (hy : IsYShare d y (W.bits v))
    (hst : Corr ty st) :
    Spec (M := M) (fun i => y2aLabels W (y i) (delta i)) st (fun r _ => Separated (YaoNet.hash M) (r ID1)) := by
  refine (spec_y2aLabels hW hd hy hst).mono ?_
  rintro r - ⟨zs, e⟩
  rw [e]
  exact separated_of_hash hH hd.color zs

theorem separated_b2yW {α : Type} [AddCommGroup α] [Sample R α] {W : WireType α}
    (hH : HashSeparates (YaoNet.hash M)) (hW : W.Lawful) {n : Nat} {x : PartyID → Share (BitVec w)} {v : BitVec w}
    {u : α} (hx : IsBShare x v) (hu : uintToBits v.toNat n = W.bits u) (hst : Corr ty st) :
    Spec (M := M) (fun i => do
      let delta ← generateRandomGarblerDelta
      let y ← b2yOf n (x i) delta
      y2aLabels W y delta) st (fun r _ => Separated (YaoNet.hash M) (r ID1)) := by
  refine (spec_delta (M := M) hst).bind ?_
  rintro delta st' ⟨⟨d, hd⟩, hst'⟩
  refine (spec_b2yOf (n := n) hx hd hst').bind ?_
  rintro y st'' ⟨hy, hst''⟩
  rw [hu] at hy
  exact separated_y2a hH hW hd hy hst''

theorem separated_b2y2a [Sample R (ZMod p)] (hH : HashSeparates (YaoNet.hash M)) (hp : p % 2 = 1)
    {x : PartyID → Share (BitVec w)} {v : BitVec w}
    (hx : IsBShare x v) (hv : v.toNat < p) (hst : Corr ty st) :
    Spec (M := M) (fun i => b2y2aLabels p (x i)) st (fun r _ => Separated (YaoNet.hash M) (r ID1)) :=
  separated_b2yW hH (fieldType_lawful hp) hx (uintToBits_field hv) hst

end Verif.Yao
