import Verif.CoNoir.AcvmRep3
import Verif.CoNoir.AcvmShamir
import Verif.Props.Shamir

/-!
# Properties C92 to C95: the solver for Noir programs

`Verif/Spec/Acir.lean` says which assignments satisfy the opcodes of a program; `Verif/Spec/AcirShares.lean` says when the
parties hold a witness map.
-/

namespace Verif.Props

open Verif.Acvm Spec.Acir
open CircomVm (VmVal Rep3Val)
open Shamir (ShamirState ShCorr)

variable {p : Nat} [Fact p.Prime] {pedantic : Bool} {W W' : Nat → Option (ZMod p)} {ops : List (Opcode (ZMod p))}
  {returns : List Nat} {out : List (ZMod p)} {a : Assignment p}

/-! ## C92 -/

/-- C92: what the solver returns is part of every assignment that extends the inputs and satisfies the program. The
output has the values of the returned witnesses, the last one first. -/
theorem C92_only_solution (h : solve (plain p) pedantic W ops returns = .ok (W', out)) (ha : Extends a W)
    (hs : Satisfies a noMemory ops) : Extends a W' ∧ out = returns.reverse.map a := by
  obtain ⟨s, h1, rfl, -, h2⟩ := solve_iff.mp h
  have := steps_only h1 ha hs
  exact ⟨this, h2 a this⟩

/-- C92: the solver has found the witnesses that the text of the program determines. -/
theorem C92_known (h : solve (plain p) pedantic W ops returns = .ok (W', out)) (w : Nat) :
    W' w ≠ none ↔ learnAll (fun w => W w ≠ none) ops w := by
  obtain ⟨s, h1, rfl, -, h2⟩ := solve_iff.mp h
  have := steps_known h1
  exact iff_of_eq (congrFun this w)

/-- C92: if some assignment extends the inputs and satisfies the program, and each opcode determines what it is solved
for, then the solver succeeds. -/
theorem C92_complete (ha : Extends a W) (hs : Satisfies a noMemory ops) (hd : Solvable a (fun w => W w ≠ none) ops)
    (hr : ∀ w ∈ returns, learnAll (fun w => W w ≠ none) ops w) :
    ∃ W', solve (plain p) pedantic W ops returns = .ok (W', returns.reverse.map a) ∧ Extends a W' := by
  obtain ⟨s, h1⟩ := steps_complete (pedantic := pedantic) (s := ⟨W, fun _ => none⟩) ha hs hd
  have hx := steps_only h1 ha hs
  have hk := steps_known h1
  refine ⟨s.witness, solve_iff.mpr ⟨s, h1, rfl, fun w hw => ?_, fun b hb => ?_⟩, hx⟩
  · rw [hk]
    exact hr w hw
  · refine List.map_congr_left fun w hw => ?_
    have : known s.witness w := by
      rw [hk]
      exact hr w (List.mem_reverse.mp hw)
    obtain ⟨v, hv⟩ := exists_of_known this
    rw [hx _ _ hv, hb _ _ hv]

/-! ## C93 -/

section Rep3

variable {R M J : Type} {width : Nat} {ty : A2BType} [Sample R (ZMod p)] [Codec M (List (ZMod p))]
  [∀ w, Sample R (BitVec w)] [∀ w, UintCodec M w] [Yao.YaoRng R] [Yao.YaoNet M] [Codec J (Share (BitVec width))]
  [∀ t, Codec J (Share (BitVec t) × List (Share (BitVec 1)))] {st₀ st₁ : PartyID → Rep3State R}

/-- C93: if the plain solver succeeds on values, then the Rep3 solver succeeds on public values and shares of them; the
parties get public values and shares of the plain result, and all the same output. Only if some constraint multiplies an
unknown witness by another one can the parties fail, and then all do. -/
theorem C93_rep3 (hw : modBits p + 2 ≤ width) (ho : ty = .yao → p % 2 = 1)
    (hH : ty = .yao → Yao.HashSeparates (Yao.YaoNet.hash M)) {Ws : PartyID → Nat → Option (Rep3Val p)}
    (hW : Represents IsShare Ws W) (hS : ∀ op ∈ ops, (rep3Support p).Ok op) (hn : returns.Nodup)
    (h : solve (plain p) pedantic W ops returns = .ok (W', out)) (h₀ : Corr ty st₀) (h₁ : Corr ty st₁) :
    EnsuresTwoOr (Inverts (fun w => W w ≠ none) ops) (M := M) (J := J)
      (fun i => solve (Acvm.rep3 width) pedantic (Ws i) ops returns) st₀ st₁
      (fun r s₀ s₁ => SolvedR IsShare returns r (W', out) ∧ Corr ty s₀ ∧ Corr ty s₁) :=
  ((rep3_sim (R := R) (M := M) (J := J) hw ho hH).solve pedantic hW hS id hn _ h st₀ st₁ h₀ h₁).ensures

/-- C93: the parties do not fail if unknown witnesses are not multiplied. -/
theorem C93_rep3_no_failure (hw : modBits p + 2 ≤ width) (ho : ty = .yao → p % 2 = 1)
    (hH : ty = .yao → Yao.HashSeparates (Yao.YaoNet.hash M)) {Ws : PartyID → Nat → Option (Rep3Val p)}
    (hW : Represents IsShare Ws W) (hS : ∀ op ∈ ops, (rep3Support p).Ok op) (hn : returns.Nodup)
    (hi : ¬ Inverts (fun w => W w ≠ none) ops) (h : solve (plain p) pedantic W ops returns = .ok (W', out))
    (h₀ : Corr ty st₀) (h₁ : Corr ty st₁) :
    EnsuresTwo (M := M) (J := J) (fun i => solve (Acvm.rep3 width) pedantic (Ws i) ops returns) st₀ st₁
      (fun r s₀ s₁ => SolvedR IsShare returns r (W', out) ∧ Corr ty s₀ ∧ Corr ty s₁) := by
  rcases C93_rep3 (M := M) (J := J) hw ho hH hW hS hn h h₀ h₁ with h | ⟨h, -⟩
  · exact h
  · exact absurd h hi

/-- C93: with an assignment that satisfies the program. The parties hold public values and shares of it, and its values
of the returned witnesses are what all of them output. -/
theorem C93_rep3_assignment (hw : modBits p + 2 ≤ width) (ho : ty = .yao → p % 2 = 1)
    (hH : ty = .yao → Yao.HashSeparates (Yao.YaoNet.hash M)) {Ws : PartyID → Nat → Option (Rep3Val p)}
    (hW : Represents IsShare Ws W) (hS : ∀ op ∈ ops, (rep3Support p).Ok op) (hn : returns.Nodup)
    (hi : ¬ Inverts (fun w => W w ≠ none) ops) (ha : Extends a W) (hs : Satisfies a noMemory ops)
    (hd : Solvable a (fun w => W w ≠ none) ops) (hr : ∀ w ∈ returns, learnAll (fun w => W w ≠ none) ops w)
    (h₀ : Corr ty st₀) (h₁ : Corr ty st₁) :
    EnsuresTwo (M := M) (J := J) (fun i => solve (Acvm.rep3 width) pedantic (Ws i) ops returns) st₀ st₁ (fun r _ _ =>
      (∀ i, (r i).2 = returns.reverse.map fun w => .pub (a w)) ∧
      ∀ w, learnAll (fun w => W w ≠ none) ops w → ∃ x, (∀ i, (r i).1 w = some (x i)) ∧ IsVal IsShare x (a w)) := by
  obtain ⟨W', h, hx⟩ := C92_complete (pedantic := pedantic) ha hs hd hr
  obtain ⟨k, hk⟩ := C93_rep3_no_failure (M := M) (J := J) hw ho hH hW hS hn hi h h₀ h₁
  refine ⟨k, hk.mono ?_⟩
  rintro r s₀ s₁ ⟨⟨h1, h2, -⟩, -, -⟩
  refine ⟨fun i => by rw [h2 i, List.map_map]; rfl, fun w hw => ?_⟩
  have hk := (C92_known h w).mpr hw
  rcases h1 w with ⟨h1, -⟩ | ⟨v, x, h1, h3, h4⟩
  · exact absurd h1 hk
  · exact ⟨x, h3, hx _ _ h1 ▸ h4⟩

end Rep3

/-! ## C94 -/

/-- C94: if no value is read from memory into a known witness, then the result of the solver satisfies the program if and
only if it satisfies the constraints without unknown witnesses.
Partial: that the result satisfies the program whenever the solver accepts is false, see `C94_satisfied_false`. -/
theorem C94_satisfied_partial (h : solve (plain p) pedantic W ops returns = .ok (W', out))
    (hf : FreshReads (fun w => W w ≠ none) ops) (ha : Extends a W') :
    Extends a W ∧ (Satisfies a noMemory ops ↔ ∀ e, IsSettled (fun w => W w ≠ none) ops e → eval a e = 0) := by
  obtain ⟨s, h1, rfl, -, -⟩ := solve_iff.mp h
  obtain ⟨h2, h3⟩ := steps_back h1 hf ha
  exact ⟨h2, fun hs => settled_of_satisfies hs, h3⟩

/-- C94: in particular the result satisfies programs in which every constraint has an unknown witness. -/
theorem C94_no_settled_partial (h : solve (plain p) pedantic W ops returns = .ok (W', out))
    (hf : FreshReads (fun w => W w ≠ none) ops) (hs : ∀ e, ¬ IsSettled (fun w => W w ≠ none) ops e) (ha : Extends a W') :
    Satisfies a noMemory ops :=
  (C94_satisfied_partial h hf ha).2.mpr fun e he => absurd he (hs e)

/-- A constraint without unknown witnesses is accepted whatever its value is. -/
theorem C94_constraint_ignored (e : Expression (ZMod p)) (hk : ∀ w, mentions e w → W w ≠ none) :
    solve (plain p) pedantic W [.assertZero e] [] = .ok (W, []) := by
  have h1 : ∃ s, solveAssertZero (plain p) ⟨W, fun _ => none⟩ e = .ok s ∧ s.witness = W := by
    have ha := extends_someExt W
    have hok : MulOk (known W) e.mulTerms := fun t ht h0 => .inl (hk _ (.inl ⟨t, ht, h0, .inl rfl⟩))
    obtain ⟨qc, h1, -⟩ := simplify_ok ha hok
    have h2 : unknowns (someExt W) (known W) e = [] := by
      refine List.eq_nil_iff_forall_not_mem.mpr fun t ht => ?_
      obtain ⟨h3, h4⟩ := mem_unknowns ht
      exact h4 (hk _ h3)
    rw [h2] at h1
    refine ⟨⟨W, fun _ => none⟩, ?_, rfl⟩
    unfold solveAssertZero
    rw [show (⟨W, fun _ => none⟩ : PSt p).witness = W from rfl, h1]
    rfl
  obtain ⟨s, h1, h2⟩ := h1
  refine solve_iff.mpr ⟨s, ?_, h2.symm, by simp, by simp⟩
  show (solveAssertZero (plain p) ⟨W, fun _ => none⟩ e >>= fun s => Except.ok s) = _
  rw [h1]
  rfl

/-- The full claim of C94 is false: the solver accepts, and no assignment with the values it returns satisfies the
program. -/
theorem C94_satisfied_false : ∃ (p : Nat) (_ : Fact p.Prime) (W W' : Nat → Option (ZMod p)) (ops : List (Opcode (ZMod p))),
    solve (plain p) true W ops [] = .ok (W', []) ∧ ∀ a, Extends a W' → ¬ Satisfies a noMemory ops := by
  refine ⟨7, ⟨by norm_num⟩, fun w => if w = 0 then some 3 else none, _, [.assertZero ⟨[], [(1, 0)], 1⟩], rfl, fun a ha hs => ?_⟩
  have h0 : a 0 = 3 := ha 0 3 rfl
  have := hs.1
  simp only [Holds, eval, List.map_nil, List.sum_nil, List.map_cons, List.sum_cons, h0] at this
  exact absurd this (by decide)

/-- Neither are values that are read from memory compared with known ones: the solver replaces an input. -/
theorem C94_read_overwrites : ∃ (p : Nat) (_ : Fact p.Prime) (W W' : Nat → Option (ZMod p)) (ops : List (Opcode (ZMod p))),
    solve (plain p) true W ops [] = .ok (W', []) ∧ W 1 = some 5 ∧ W' 1 = some 3 := by
  refine ⟨7, ⟨by norm_num⟩, fun w => if w = 0 then some 0 else if w = 1 then some 5 else if w = 2 then some 3 else none, _,
    [.memoryInit 0 [2], .memoryRead 0 0 1], rfl, rfl, rfl⟩

/-! ## C95 -/

theorem plain_product {c x y : ZMod p} (hc : c ≠ 0) : ∃ W', solve (plain p) pedantic
    (fun w => if w = 0 then some x else if w = 1 then some y else none)
    [.assertZero ⟨[(c, 0, 1)], [(-1, 2)], 0⟩] [2] = .ok (W', [c * x * y]) := by
  have h1 : (-1 : ZMod p) ≠ 0 := neg_ne_zero.mpr one_ne_zero
  have e : plainSolveEquation (-1) (0 + c * x * y + 0) = Except.ok (c * x * y) := by
    rw [plainSolveEquation, if_neg h1]
    simp
  refine ⟨Function.update (fun w => if w = 0 then some x else if w = 1 then some y else none) 2 (some (c * x * y)), ?_⟩
  refine solve_iff.mpr ⟨⟨_, fun _ => none⟩, ?_, rfl, ?_, ?_⟩
  · simp only [steps, step, solveAssertZero, simplifyExpression, evaluateMulTerms, if_neg hc, evaluateLinearTerms, solveSimplified, plain,
      bind, Except.bind, pure, Except.pure, St.insert, if_true, one_ne_zero, if_false, OfNat.ofNat_ne_zero, List.nil_append, OfNat.ofNat_ne_one]
    rw [e]
    rfl
  · simp [known]
  · intro a ha
    rw [List.reverse_singleton, List.map_singleton, ha 2 (c * x * y) (by simp)]

section Shamir

variable {R M : Type} {n t : Nat} [NeZero n] [Sample R (ZMod p)] [Codec M (ZMod p)] [Codec M (List (ZMod p))]
  {st : Fin n → ShamirState n R (ZMod p)}

/-- C95: the Shamir solver, for programs without tables, `AND` and `XOR`, and with products of coefficient one: if the
plain solver succeeds, the parties get public values and shares of the plain result, and all the same output; they can fail
only if a constraint multiplies an unknown witness, and then all do.
Partial: for products with other coefficients the result is wrong (`C95_coefficient_false`), tables do not exist. -/
theorem C95_shamir_partial {Ws : Fin n → Nat → Option (ShamirVal p)} (hW : Represents (IsShamir (ZMod p) t) Ws W)
    (hS : ∀ op ∈ ops, (shamirSupport p).Ok op) (hn : returns.Nodup)
    (h : solve (plain p) pedantic W ops returns = .ok (W', out)) (hst : ShCorr t st) :
    EnsuresE (M := M) (fun i => solve shamir pedantic (Ws i) ops returns) st (fun r =>
      ((∃ e, ∀ i, r i = .error (.err e)) ∧ Inverts (fun w => W w ≠ none) ops) ∨
      ∃ v st', (∀ i, r i = .ok (v i, st' i)) ∧ SolvedR (IsShamir (ZMod p) t) returns v (W', out) ∧ ShCorr t st') := by
  refine (((shamir_sim (R := R) (M := M) (n := n) (t := t)).solve pedantic hW hS id hn _ h st hst).mono ?_).ensures
  rintro r (⟨e, he, h⟩ | ⟨v, st', hv, h⟩)
  · exact .inl ⟨⟨e, he⟩, h⟩
  · exact .inr ⟨v, st', hv, h⟩

/-- C95: the parties do not fail if unknown witnesses are not multiplied. -/
theorem C95_shamir_no_failure_partial {Ws : Fin n → Nat → Option (ShamirVal p)}
    (hW : Represents (IsShamir (ZMod p) t) Ws W) (hS : ∀ op ∈ ops, (shamirSupport p).Ok op) (hn : returns.Nodup)
    (hi : ¬ Inverts (fun w => W w ≠ none) ops) (h : solve (plain p) pedantic W ops returns = .ok (W', out))
    (hst : ShCorr t st) :
    Ensures (M := M) (fun i => solve shamir pedantic (Ws i) ops returns) st (fun v st' =>
      SolvedR (IsShamir (ZMod p) t) returns v (W', out) ∧ ShCorr t st') := by
  obtain ⟨r, l, h1, h2⟩ := (shamir_sim (R := R) (M := M) (n := n) (t := t)).solve pedantic hW hS id hn _ h st hst
  rcases h2 with ⟨e, -, h2⟩ | ⟨v, st', hv, hQ⟩
  · exact absurd h2 hi
  · obtain rfl := funext hv
    exact ensures_iff.mpr ⟨fun i => (v i, st' i), l, h1, hQ⟩

omit [NeZero n] in
theorem shamir_product {c x s : ZMod p} (hc : c ≠ 0) : solve (shamir (n := n) (R := R) (M := M)) pedantic
    (fun w => if w = 0 then some (.pub x) else if w = 1 then some (.arith s) else none)
    [.assertZero ⟨[(c, 0, 1)], [(-1, 2)], 0⟩] [2] = solve shamir pedantic
    (fun w => if w = 0 then some (.pub x) else if w = 1 then some (.arith s) else none)
    [.assertZero ⟨[(1, 0, 1)], [(-1, 2)], 0⟩] [2]  := by
  simp only [solve, steps, step, solveAssertZero, simplifyExpression, evaluateMulTerms, if_neg hc, if_neg one_ne_zero]
  rfl

/-- The solver is wrong for the product of a public and a shared witness with a coefficient: from `c * x * y = z` the
parties compute `z = x * y`, and the plain solver `z = c * x * y`. -/
theorem C95_coefficient_false {c x y : ZMod p} (hc : c ≠ 0) {s : Fin n → ZMod p} (hs : IsShamir (ZMod p) t s y)
    (hst : ShCorr t st) :
    let ops : List (Opcode (ZMod p)) := [.assertZero ⟨[(c, 0, 1)], [(-1, 2)], 0⟩]
    (∃ W', solve (plain p) pedantic (fun w => if w = 0 then some x else if w = 1 then some y else none) ops [2] =
      .ok (W', [c * x * y])) ∧
    Ensures (M := M) (fun i => solve shamir pedantic
      (fun w => if w = 0 then some (.pub x) else if w = 1 then some (.arith (s i)) else none) ops [2]) st
      (fun r _ => ∀ i, (r i).2 = [.pub (x * y)]) := by
  refine ⟨plain_product hc, ?_⟩
  simp only [shamir_product hc]
  obtain ⟨W', h⟩ := plain_product (pedantic := pedantic) (x := x) (y := y) (one_ne_zero (α := ZMod p))
  have hW : Represents (IsShamir (ZMod p) t) (fun (i : Fin n) w => if w = 0 then some (VmVal.pub x) else if w = 1 then
      some (.arith (s i)) else none) (fun w => if w = 0 then some x else if w = 1 then some y else none) := by
    intro w
    rcases w with _ | _ | w
    · exact .inr ⟨x, fun _ => .pub x, rfl, fun _ => rfl, .inl rfl⟩
    · exact .inr ⟨y, fun i => .arith (s i), rfl, fun _ => rfl, .inr ⟨s, rfl, hs⟩⟩
    · exact .inl ⟨rfl, fun _ => rfl⟩
  have hi : ¬ Inverts (fun w => (fun w => if w = 0 then some x else if w = 1 then some y else none) w ≠ none)
      [.assertZero ⟨[(1, 0, 1)], [((-1 : ZMod p), 2)], 0⟩] := by
    simp [Inverts]
  refine (C95_shamir_no_failure_partial (M := M) (R := R) hW ?_ (List.nodup_singleton 2) hi h hst).mono ?_
  · intro op hop
    rw [List.mem_singleton.mp hop]
    intro u hu _
    rw [List.mem_singleton.mp hu]
    rfl
  · rintro r s ⟨⟨-, h2, -⟩, -⟩ i
    rw [h2 i, one_mul]
    rfl

end Shamir

/-! ## Instances -/

namespace AcvmDemo

open Verif.Demo

/-- What the workers return. -/
inductive Results where
  | s (w : Nat) (x : Share (BitVec w))
  | o (w : Nat) (x : Share (BitVec w) × List (Share (BitVec 1)))

instance {w : Nat} : Codec Results (Share (BitVec w)) :=
  ⟨.s w, fun | .s w' x => if h : w' = w then some (h ▸ x) else none | _ => none, fun _ => by simp⟩
instance {w : Nat} : Codec Results (Share (BitVec w) × List (Share (BitVec 1))) :=
  ⟨.o w, fun | .o w' x => if h : w' = w then some (h ▸ x) else none | _ => none, fun _ => by simp⟩

/-- A program with a product, a table, a range check, an `AND` and an `XOR`. -/
def program : List (Opcode F7) :=
  [.assertZero ⟨[(1, 0, 1)], [(-1, 2)], 0⟩, .memoryInit 0 [0, 1, 2], .memoryRead 0 2 3, .memoryWrite 0 2 0, .memoryRead 0 2 6,
    .range (.witness 0) 2, .and (.witness 0) (.constant 1) 2 4, .xor (.witness 0) (.constant 1) 2 5]

/-- The inputs `3` and `5`. -/
def inputs : Nat → Option F7 := fun w => if w = 0 then some 3 else if w = 1 then some 5 else none

/-- The secret input `3` and the public input `5`. -/
def sharedInputs (i : PartyID) : Nat → Option (Rep3Val 7) :=
  fun w => if w = 0 then some (.arith (three7 i)) else if w = 1 then some (.pub 5) else none

/-- The assignment. -/
def assignment : Assignment 7 := fun w => [3, 5, 1, 5, 1, 2, 3].getD w 0

theorem extends_inputs : Extends assignment inputs := by
  intro w v h
  rcases w with _ | _ | w <;> simp [inputs] at h <;> subst h <;> rfl

theorem represents_inputs : Represents IsShare sharedInputs inputs := by
  intro w
  rcases w with _ | _ | w
  · exact .inr ⟨3, fun i => .arith (three7 i), rfl, fun _ => rfl, .inr ⟨three7, rfl, isShare_three7⟩⟩
  · exact .inr ⟨5, fun _ => .pub 5, rfl, fun _ => rfl, .inl rfl⟩
  · exact .inl ⟨rfl, fun _ => rfl⟩

theorem satisfies : Satisfies assignment noMemory program := by
  refine ⟨?_, rfl, ⟨_, rfl, rfl⟩, ⟨_, rfl, ?_⟩, ⟨_, rfl, rfl⟩, ?_, ?_, ?_, trivial⟩
  · show eval assignment ⟨[(1, 0, 1)], [(-1, 2)], 0⟩ = 0
    decide
  · decide
  · show (3 : F7).val < 2 ^ 2
    decide
  · show (1 : F7) = (((3 : F7).val &&& (1 : F7).val) % 2 ^ 2 : Nat)
    decide
  · show (2 : F7) = (((3 : F7).val ^^^ (1 : F7).val) % 2 ^ 2 : Nat)
    decide

theorem solvable : Solvable assignment (fun w => inputs w ≠ none) program := by
  simp [program, Solvable, Determined, unknowns, learn, inputs, mentions, inputKnown, inputVal, assignment]
  exact ⟨by decide, by decide, by decide⟩

theorem not_inverts : ¬ Inverts (fun w => inputs w ≠ none) program := by
  simp [program, Inverts, inputs]

theorem learned : ∀ w ∈ [2, 3, 4, 5, 6], learnAll (fun w => inputs w ≠ none) program w := by
  simp [program, learnAll, learn, mentions]

theorem supported : ∀ op ∈ program, (rep3Support 7).Ok op := by
  simp [program, Support.Ok, rep3Support]

end AcvmDemo

open AcvmDemo Verif.Demo

example : ∃ W', solve (plain 7) true inputs program [2, 3, 4, 5, 6] = .ok (W', [3, 2, 1, 5, 1]) ∧
    Extends assignment W' := C92_complete extends_inputs satisfies solvable learned

example : ∃ W', solve (plain 7) true inputs program [2, 3, 4, 5, 6] = .ok (W', [3, 2, 1, 5, 1]) ∧
    Extends assignment W' ∧ (∀ w, W' w ≠ none ↔ learnAll (fun w => inputs w ≠ none) program w) := by
  obtain ⟨W', h, -⟩ := C92_complete (pedantic := true) extends_inputs satisfies solvable learned
  exact ⟨W', h, (C92_only_solution h extends_inputs satisfies).1, C92_known h⟩

example : ∃ W' out, solve (plain 7) true inputs program [2, 3, 4, 5, 6] = .ok (W', out) ∧
    EnsuresTwo (M := Msg) (J := Results) (fun i => solve (Acvm.rep3 5) true (sharedInputs i) program [2, 3, 4, 5, 6])
      states states (fun r s₀ s₁ => SolvedR IsShare [2, 3, 4, 5, 6] r (W', out) ∧ Corr .direct s₀ ∧ Corr .direct s₁) := by
  obtain ⟨W', h, -⟩ := C92_complete (pedantic := true) extends_inputs satisfies solvable learned
  exact ⟨W', _, h, C93_rep3_no_failure (M := Msg) (J := Results) (by decide) (by decide) (fun _ => demo_hash)
    represents_inputs supported (by decide) not_inverts h corr_states corr_states⟩

/-- A product with an unknown witness: `x * z = 1` for the secret `x = 3`. -/
example : ∃ W' out, solve (plain 7) true inputs [.assertZero ⟨[(1, 0, 2)], [], -1⟩] [2] = .ok (W', out) ∧
    EnsuresTwoOr (Inverts (fun w => inputs w ≠ none) [.assertZero ⟨[((1 : F7), 0, 2)], [], -1⟩]) (M := Msg) (J := Results)
      (fun i => solve (Acvm.rep3 5) true (sharedInputs i) [.assertZero ⟨[(1, 0, 2)], [], -1⟩] [2]) states states
      (fun r s₀ s₁ => SolvedR IsShare [2] r (W', out) ∧ Corr .direct s₀ ∧ Corr .direct s₁) := by
  have ha : Extends (fun w => [3, 5, 5].getD w 0 : Assignment 7) inputs := by
    intro w v h
    rcases w with _ | _ | w <;> simp [inputs] at h <;> subst h <;> rfl
  obtain ⟨W', h, -⟩ := C92_complete (p := 7) (pedantic := true) (ops := [.assertZero ⟨[(1, 0, 2)], [], -1⟩])
    (returns := [2]) ha ⟨by show eval _ _ = _; decide, trivial⟩
    (by simp [Solvable, Determined, unknowns, inputs]; decide) (by simp [learnAll, learn, mentions])
  exact ⟨W', _, h, C93_rep3 (M := Msg) (J := Results) (by decide) (by decide) (fun _ => demo_hash)
    represents_inputs (by simp [Support.Ok, rep3Support]) (by decide) h corr_states corr_states⟩

example : ∃ W' out, solve (plain 7) true inputs program [2, 3, 4, 5, 6] = .ok (W', out) ∧
    ∀ a, Extends a W' → Satisfies a noMemory program := by
  obtain ⟨W', h, -⟩ := C92_complete (pedantic := true) extends_inputs satisfies solvable learned
  refine ⟨W', _, h, fun a ha => C94_no_settled_partial h ?_ ?_ ha⟩
  · simp [program, FreshReads, learn, inputs, mentions]
  · intro e he
    rcases he with ⟨h, hk⟩ | he
    · cases h
      exact hk 2 (.inr ⟨_, List.mem_singleton_self _, rfl⟩) rfl
    · simp [IsSettled] at he

example : solve (plain 7) true inputs [.assertZero ⟨[(1, 0, 1)], [], 3⟩] [] = .ok (inputs, []) :=
  C94_constraint_ignored _ (by simp [mentions, inputs]; rintro w (rfl | rfl) <;> simp)

example : EnsuresTwo (M := Msg) (J := Results)
    (fun i => solve (Acvm.rep3 5) true (sharedInputs i) program [2, 3, 4, 5, 6]) states states (fun r _ _ =>
      (∀ i, (r i).2 = [.pub 3, .pub 2, .pub 1, .pub 5, .pub 1]) ∧
      ∀ w, learnAll (fun w => inputs w ≠ none) program w →
        ∃ x, (∀ i, (r i).1 w = some (x i)) ∧ IsVal IsShare x (assignment w)) :=
  C93_rep3_assignment (M := Msg) (J := Results) (by decide) (by decide) (fun _ => demo_hash) represents_inputs supported
    (by decide) not_inverts extends_inputs satisfies solvable learned corr_states corr_states

/-- Two products of shared and public values, and a constraint with a coefficient. -/
example : ∃ st : Fin 3 → ShamirState 3 Nat F7, ShCorr 1 st ∧ ∃ W' out,
    solve (plain 7) true inputs [.assertZero ⟨[(1, 0, 1), (1, 0, 0)], [(4, 2)], 1⟩] [2] = .ok (W', out) ∧
    Ensures (M := Msg) (fun i => solve shamir true
      (fun w => if w = 0 then some (.arith (sh3 i)) else if w = 1 then some (.pub 5) else none)
      [.assertZero ⟨[(1, 0, 1), (1, 0, 0)], [(4, 2)], 1⟩] [2]) st
      (fun r s => SolvedR (IsShamir F7 1) [2] r (W', out) ∧ ShCorr 1 s) := by
  obtain ⟨st, hst⟩ := shamir_states
  have ha : Extends (fun w => [3, 5, 6].getD w 0 : Assignment 7) inputs := by
    intro w v h
    rcases w with _ | _ | w <;> simp [inputs] at h <;> subst h <;> rfl
  obtain ⟨W', h, -⟩ := C92_complete (p := 7) (pedantic := true)
    (ops := [.assertZero ⟨[(1, 0, 1), (1, 0, 0)], [(4, 2)], 1⟩])
    (returns := [2]) ha ⟨by show eval _ _ = _; decide, trivial⟩
    (by simp [Solvable, Determined, unknowns, inputs]; decide) (by simp [learnAll, learn, mentions])
  refine ⟨st, hst, W', _, h, C95_shamir_no_failure_partial (M := Msg) ?_ (by simp [Support.Ok, shamirSupport]; tauto) (by decide)
    (by simp [Inverts, inputs]; rintro _ _ _ (⟨-, rfl, rfl⟩ | ⟨-, rfl, rfl⟩) <;> simp) h hst⟩
  intro w
  rcases w with _ | _ | w
  · exact .inr ⟨3, fun i => .arith (sh3 i), rfl, fun _ => rfl, .inr ⟨sh3, rfl, isShamir_sh3⟩⟩
  · exact .inr ⟨5, fun _ => .pub 5, rfl, fun _ => rfl, .inl rfl⟩
  · exact .inl ⟨rfl, fun _ => rfl⟩

example : ∃ st : Fin 3 → ShamirState 3 Nat F7, ShCorr 1 st ∧
    Ensures (M := Msg) (fun i => solve shamir true
      (fun w => if w = 0 then some (.pub 2) else if w = 1 then some (.arith (sh3 i)) else none)
      [.assertZero ⟨[(5, 0, 1)], [(-1, 2)], 0⟩] [2]) st (fun r _ => ∀ i, (r i).2 = [.pub (2 * 3)]) :=
  shamir_states.imp fun _ h => ⟨h, (C95_coefficient_false (by decide) isShamir_sh3 h).2⟩

end Verif.Props
