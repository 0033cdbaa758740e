import Verif.Yao.CircLemmas

/-!
# Garbling and evaluating a circuit

Running circuit code on plain bits, and running it at the garbler and at the evaluator, give related
results.
-/

namespace Verif.Yao

open Circ

/-! ### Plain bits -/

theorem CSpec.plain {α β : Type} {Q : α → β → Prop} {c : Circ Bool α} {c' : Circ Bool β}
    (h : CSpec (fun a b x => a = x ∧ b = x) Q c c') :
    ∃ a b, c.plain = .ok a ∧ c'.plain = .ok b ∧ Q a b := by
  induction h with
  | ret h => exact ⟨_, _, rfl, rfl, h⟩
  | @and a b a' b' x y k k' ha hb _ ih =>
    obtain ⟨⟨rfl, rfl⟩, rfl, rfl⟩ := And.intro ha hb
    exact ih _ _ ⟨rfl, rfl⟩
  | @xor a b a' b' x y k k' ha hb _ ih =>
    obtain ⟨⟨rfl, rfl⟩, rfl, rfl⟩ := And.intro ha hb
    exact ih _ _ ⟨rfl, rfl⟩
  | @negate a a' x k k' ha _ ih =>
    obtain ⟨rfl, rfl⟩ := ha
    exact ih _ _ ⟨rfl, rfl⟩
  | zero _ ih => exact ih _ _ ⟨rfl, rfl⟩
  | one _ ih => exact ih _ _ ⟨rfl, rfl⟩

theorem All3.plain_eq {a b c : List Bool} (h : All3 (fun a b x => a = x ∧ b = x) a b c) : a = c := by
  induction h with
  | nil => rfl
  | cons h _ ih => rw [h.1, ih]

/-- The result of a circuit on plain bits. -/
theorem CSpec.plain' {α β : Type} {Q : α → β → Prop} {c : Circ Bool α} {c' : Circ Bool β}
    (h : CSpec (fun a b x => a = x ∧ b = x) Q c c') {P : α → Prop} (hp : ∀ a b, Q a b → P a) :
    ∃ a, c.plain = .ok a ∧ P a := by
  obtain ⟨a, b, h1, _, h2⟩ := h.plain
  exact ⟨a, h1, hp a b h2⟩

/-! ### Garbler and evaluator -/

/-- Two optional wires both absent, or both there and related. -/
def OptEnc (d : Label) (g e : Option Label) (b : Bool) : Prop :=
  match g, e with
  | none, none => True
  | some x, some y => Enc d x y b
  | _, _ => False

/-- The evaluator is in step with the garbler. -/
structure InStep {R : Type} (d : Label) (g : Garbler R) (e : Evaluator) : Prop where
  delta : g.delta = d
  gate : g.currentGate = e.currentGate
  out : g.currentOutput = e.currentOutput
  zero : OptEnc d g.constZero e.constZero false
  one : OptEnc d g.constOne e.constOne true

section

variable {R : Type} [Sample R Label] {d : Label} {α β : Type} {Q : α → β → Prop}

/-- What one operation or a whole circuit does at the garbler and at the evaluator. -/
def Adequate (d : Label) (Q : α → β → Prop) (rg : Garbler R → Except Err (α × Garbler R))
    (re : Evaluator → Except Err (β × Evaluator)) : Prop :=
  ∀ (g : Garbler R) (e : Evaluator), InStep d g e →
    ∃ a g' b e' new, rg g = .ok (a, g') ∧ g'.blocks = g.blocks ++ new ∧
      (∀ rest, re { e with circuit := new ++ rest } = .ok (b, { e' with circuit := rest })) ∧
      InStep d g' e' ∧ Q a b

theorem Adequate.bind {γ δ : Type} {Q' : γ → δ → Prop} {rg : Garbler R → Except Err (α × Garbler R)}
    {re : Evaluator → Except Err (β × Evaluator)} (h : Adequate d Q rg re)
    {kg : α → Garbler R → Except Err (γ × Garbler R)} {ke : β → Evaluator → Except Err (δ × Evaluator)}
    (hk : ∀ a b, Q a b → Adequate d Q' (kg a) (ke b)) :
    Adequate d Q' (fun g => rg g >>= fun r => kg r.1 r.2) (fun e => re e >>= fun r => ke r.1 r.2) := by
  intro g e hge
  obtain ⟨a, g', b, e', new, h1, h2, h3, h4, h5⟩ := h g e hge
  obtain ⟨a₂, g₂, b₂, e₂, new₂, k1, k2, k3, k4, k5⟩ := hk a b h5 g' e' h4
  refine ⟨a₂, g₂, b₂, e₂, new ++ new₂, ?_, ?_, ?_, k4, k5⟩
  · simp only [h1]; exact k1
  · rw [k2, h2, List.append_assoc]
  · intro rest
    simp only [List.append_assoc, h3]
    exact k3 rest

theorem adequate_and (H : Hash) (hd : d.color = true) {a b a' b' : Label} {x y : Bool} (ha : Enc d a a' x)
    (hb : Enc d b b' y) :
    Adequate (R := R) d (fun c c' => Enc d c c' (x && y)) ((Garbler.backend H).and a b)
      ((Evaluator.backend H).and a' b') := by
  intro g e h
  refine ⟨_, _, evaluateAndGate H e.currentGate a' b' (garbleAndGate H g.currentGate a b g.delta).1
    (garbleAndGate H g.currentGate a b g.delta).2.1, { e with currentGate := e.currentGate + 1 },
    [(garbleAndGate H g.currentGate a b g.delta).1, (garbleAndGate H g.currentGate a b g.delta).2.1], rfl,
    ?_, fun rest => rfl, ⟨h.delta, ?_, h.out, h.zero, h.one⟩, ?_⟩
  · simp only [Garbler.and, Garbler.addBlock, List.append_assoc, List.cons_append, List.nil_append]
    rfl
  · simp [Garbler.and, Garbler.addBlock, h.gate]
  · simp only [Garbler.and]
    rw [h.delta, h.gate]
    exact andGate hd H _ ha hb

theorem enc_xor {a b a' b' : Label} {x y : Bool} (ha : Enc d a a' x) (hb : Enc d b b' y) :
    Enc d (a ^^^ b) (a' ^^^ b') (x ^^ y) := by
  unfold Enc at *
  rw [ha, hb, cmul_xor]
  ac_rfl

theorem enc_not {a a' : Label} {x : Bool} (ha : Enc d a a' x) : Enc d (d ^^^ a) a' (!x) := by
  unfold Enc at *
  rw [ha]
  cases x
  · simp only [cmul_false, cmul_true, Bool.not_false]
    rw [BitVec.xor_comm d, BitVec.xor_assoc, BitVec.xor_self]
    rfl
  · simp only [cmul_false, cmul_true, Bool.not_true]
    rw [BitVec.xor_comm d]
    exact BitVec.xor_zero.symm

theorem adequate_xor (H : Hash) {a b a' b' : Label} {x y : Bool} (ha : Enc d a a' x) (hb : Enc d b b' y) :
    Adequate (R := R) d (fun c c' => Enc d c c' (x ^^ y)) ((Garbler.backend H).xor a b)
      ((Evaluator.backend H).xor a' b') := by
  intro g e h
  exact ⟨_, g, _, e, [], rfl, by simp, fun rest => rfl, h, enc_xor ha hb⟩

theorem adequate_negate (H : Hash) {a a' : Label} {x : Bool} (ha : Enc d a a' x) :
    Adequate (R := R) d (fun c c' => Enc d c c' (!x)) ((Garbler.backend H).negate a)
      ((Evaluator.backend H).negate a') := by
  intro g e h
  refine ⟨_, g, _, e, [], rfl, by simp, fun rest => rfl, h, ?_⟩
  rw [h.delta]
  exact enc_not ha

theorem adequate_zero (H : Hash) :
    Adequate (R := R) d (fun c c' => Enc d c c' false) (Garbler.backend H).zero
      (Evaluator.backend H).zero := by
  intro g e h
  have hz := h.zero
  show ∃ a g' b e' new, Except.ok g.getZero = _ ∧ _ ∧ (∀ rest, Evaluator.getZero _ = _) ∧ _
  rcases hg : g.constZero with _ | z <;> rcases he : e.constZero with _ | z'
  · set blk := (Sample.sample (α := Label) g.rng).1 ^^^ g.delta.cmul false with hblk
    refine ⟨_, _, blk, { e with constZero := some blk }, [blk], rfl, ?_, ?_, ?_, ?_⟩
    · simp [Garbler.getZero, hg, Garbler.constant, Garbler.addBlock, hblk]
    · intro rest
      simp only [Evaluator.getZero, he, Evaluator.getBlock, List.cons_append, List.nil_append]
      rfl
    · simp only [Garbler.getZero, hg, Garbler.constant, Garbler.addBlock, hblk]
      exact ⟨h.delta, h.gate, h.out, by simp only [OptEnc, Enc, h.delta], h.one⟩
    · simp only [Garbler.getZero, hg, Garbler.constant, Garbler.addBlock, Enc, hblk, h.delta]
  · rw [hg, he] at hz; exact hz.elim
  · rw [hg, he] at hz; exact hz.elim
  · rw [hg, he] at hz
    refine ⟨z, g, z', e, [], ?_, by simp, ?_, h, hz⟩
    · simp [Garbler.getZero, hg]
    · intro rest
      simp [Evaluator.getZero, he]

theorem adequate_one (H : Hash) :
    Adequate (R := R) d (fun c c' => Enc d c c' true) (Garbler.backend H).one
      (Evaluator.backend H).one := by
  intro g e h
  have hz := h.one
  show ∃ a g' b e' new, Except.ok g.getOne = _ ∧ _ ∧ (∀ rest, Evaluator.getOne _ = _) ∧ _
  rcases hg : g.constOne with _ | z <;> rcases he : e.constOne with _ | z'
  · set blk := (Sample.sample (α := Label) g.rng).1 ^^^ g.delta.cmul true with hblk
    refine ⟨_, _, blk, { e with constOne := some blk }, [blk], rfl, ?_, ?_, ?_, ?_⟩
    · simp [Garbler.getOne, hg, Garbler.constant, Garbler.addBlock, hblk]
    · intro rest
      simp only [Evaluator.getOne, he, Evaluator.getBlock, List.cons_append, List.nil_append]
      rfl
    · simp only [Garbler.getOne, hg, Garbler.constant, Garbler.addBlock, hblk]
      exact ⟨h.delta, h.gate, h.out, h.zero, by simp only [OptEnc, Enc, h.delta]⟩
    · simp only [Garbler.getOne, hg, Garbler.constant, Garbler.addBlock, Enc, hblk, h.delta]
  · rw [hg, he] at hz; exact hz.elim
  · rw [hg, he] at hz; exact hz.elim
  · rw [hg, he] at hz
    refine ⟨z, g, z', e, [], ?_, by simp, ?_, h, hz⟩
    · simp [Garbler.getOne, hg]
    · intro rest
      simp [Evaluator.getOne, he]

/-- Garbling a circuit and evaluating the garbled circuit. -/
theorem CSpec.adequate (H : Hash) (hd : d.color = true) {c : Circ Label α} {c' : Circ Label β}
    (h : CSpec (Enc d) Q c c') :
    Adequate (R := R) d Q (c.run (Garbler.backend H)) (c'.run (Evaluator.backend H)) := by
  induction h with
  | ret h =>
    intro g e hge
    exact ⟨_, g, _, e, [], rfl, by simp, fun rest => rfl, hge, h⟩
  | and ha hb _ ih => exact (adequate_and H hd ha hb).bind fun a b h => ih a b h
  | xor ha hb _ ih => exact (adequate_xor H ha hb).bind fun a b h => ih a b h
  | negate ha _ ih => exact (adequate_negate H ha).bind fun a b h => ih a b h
  | zero _ ih => exact (adequate_zero H).bind fun a b h => ih a b h
  | one _ ih => exact (adequate_one H).bind fun a b h => ih a b h

/-! ### Outputs -/

/-- The hash does not confuse the two labels of an output wire. -/
def OutputOk (H : Hash) (d : Label) (i : Nat) (x : Label) : Prop :=
  H (.output i false) (x ^^^ d) ≠ H (.output i false) x

theorem adequate_output (H : Hash) {a a' : Label} {x : Bool} (ha : Enc d a a' x)
    (g : Garbler R) (e : Evaluator) (h : InStep d g e) (hok : OutputOk H d g.currentOutput a) :
    ∃ e' new, (g.output H a).blocks = g.blocks ++ new ∧
      (∀ rest, Evaluator.output H a' { e with circuit := new ++ rest } =
        .ok (x, { e' with circuit := rest })) ∧ InStep d (g.output H a) e' ∧
      (g.output H a).currentOutput = g.currentOutput + 1 := by
  refine ⟨{ e with currentOutput := e.currentOutput + 1 },
    [H (.output g.currentOutput false) (a ^^^ g.delta.cmul false),
      H (.output g.currentOutput true) (a ^^^ g.delta.cmul true)], ?_, ?_,
    ⟨h.delta, h.gate, ?_, h.zero, h.one⟩, rfl⟩
  · simp only [Garbler.output, Garbler.addBlock, List.append_assoc, List.cons_append, List.nil_append]
  · intro rest
    simp only [Evaluator.output, Evaluator.getBlock, List.cons_append, List.nil_append]
    unfold Enc at ha
    subst ha
    unfold OutputOk at hok
    rw [h.out] at hok ⊢
    rw [h.delta]
    have e2 : ∀ u : Label, u ^^^ (0 : Label) = u := fun u => BitVec.xor_zero
    cases x
    · simp [cmul_false, cmul_true, e2, bind, Except.bind, pure, Except.pure]
    · simp [cmul_false, cmul_true, e2, bind, Except.bind, pure, Except.pure, hok]
  · simp [Garbler.output, Garbler.addBlock, h.out]

theorem adequate_outputs (H : Hash) {as as' : List Label} {xs : List Bool} (ha : All3 (Enc d) as as' xs)
    (g : Garbler R) (e : Evaluator) (h : InStep d g e)
    (hok : ∀ i (hi : i < as.length), OutputOk H d (g.currentOutput + i) as[i]) :
    ∃ e' new, (g.outputEvaluator H as).blocks = g.blocks ++ new ∧
      (∀ rest, Evaluator.outputEvaluator H as' { e with circuit := new ++ rest } =
        .ok (xs, { e' with circuit := rest })) ∧ InStep d (g.outputEvaluator H as) e' := by
  induction ha generalizing g e with
  | nil => exact ⟨e, [], by simp [Garbler.outputEvaluator], fun rest => rfl, h⟩
  | @cons a a' x as as' xs ha _ ih =>
    obtain ⟨e₁, new₁, h1, h2, h3, h4⟩ := adequate_output H ha g e h (hok 0 (by simp))
    obtain ⟨e₂, new₂, k1, k2, k3⟩ := ih (g.output H a) e₁ h3 (fun i hi => by
      have := hok (i + 1) (by simpa using hi)
      rw [h4]
      simpa [Nat.add_assoc, Nat.add_comm 1] using this)
    refine ⟨e₂, new₁ ++ new₂, ?_, ?_, k3⟩
    · rw [← List.append_assoc, ← h1]; exact k1
    · intro rest
      simp only [Evaluator.outputEvaluator, List.append_assoc, h2]
      show (Evaluator.outputEvaluator H as' { e₁ with circuit := new₂ ++ rest } >>= _) = _
      rw [k2]
      rfl

/-- Decoding a wire from the label the evaluator holds. -/
theorem decodeBlock_enc (hd : d ≠ 0) {a a' : Label} {x : Bool} (ha : Enc d a a' x) :
    decodeBlock d a' a = .ok x := by
  unfold Enc at ha
  subst ha
  unfold decodeBlock
  have e2 : ∀ u : Label, u ^^^ (0 : Label) = u := fun u => BitVec.xor_zero
  cases x
  · simp [cmul_false, e2]
  · rw [cmul_true, if_neg, if_pos rfl]
    intro h
    apply hd
    have := congrArg (a ^^^ ·) h
    simp only [BitVec.xor_self] at this
    rw [← BitVec.xor_assoc, BitVec.xor_self] at this
    exact BitVec.zero_xor.symm.trans this

theorem decodeBlocks_enc (hd : d ≠ 0) {as as' : List Label} {xs : List Bool} (ha : All3 (Enc d) as as' xs) :
    decodeBlocks d as' as = .ok xs := by
  unfold decodeBlocks
  rw [if_neg (by rw [ha.len, ha.len']; simp)]
  induction ha with
  | nil => rfl
  | cons h _ ih =>
    simp only [List.zip_cons_cons, List.mapM_cons, decodeBlock_enc hd h, ih]
    rfl

theorem ne_zero_of_color (hd : d.color = true) : d ≠ 0 := by
  rintro rfl
  simp [Label.color] at hd

end

end Verif.Yao
