import Verif.CircomVm.VmRel
import Verif.Props.CircomVm

/-!
# C83, C84: the witness extension of circom programs

`run D` (`Verif/CircomVm/Vm.lean`) is the witness extension against a driver.  A run of the three parties is compared
with the run on values marked as public or secret (`ref`, `Verif/CircomVm/Driver.lean`), which computes on the values in
the clear, and fails where the collaborative driver does not do what the plain driver does.  With `shared := false` the
marked run fails at a branch on a secret value.
-/

namespace Verif.Props

open Verif.CircomVm Verif.Rep3 PartyID Demo

variable {R M J : Type} {p w : Nat} {t : A2BType} {st st₁ : PartyID → Rep3State R}

/-- The parties hold `pub` in the clear and shares of `wit`. -/
def HoldWitness {F : Type} [AddCommGroup F] (z : PartyID → List F × List (Share F)) (pub wit : List F) : Prop :=
  (∀ i, (z i).1 = pub) ∧ IsShares (fun i => (z i).2) wit

section Clear

variable [Fact p.Prime] [HasSqrt (ZMod p)]

theorem plain_inputs (ins : List (String × VmVal (ZMod p) (ZMod p))) :
    InputsHold Clear (fun _ : Unit => ins.map (Prod.map id VmVal.val)) ins := by
  refine ⟨ins.map fun a _ => (a.1, a.2.val), by funext i; simp [Function.comp_def, Prod.map], ?_⟩
  rw [List.forall₂_map_left_iff]
  exact List.forall₂_same.mpr fun _ _ => ⟨fun _ => rfl, rfl⟩

theorem plain_flat_inputs (ins : List (VmVal (ZMod p) (ZMod p))) :
    Cols Clear (fun _ : Unit => ins.map VmVal.val) ins := by
  refine ⟨ins.map fun a _ => a.val, by funext i; simp [Function.comp_def], ?_⟩
  rw [List.forall₂_map_left_iff]
  exact List.forall₂_same.mpr fun _ _ => rfl

theorem finished_clear {a b : List (ZMod p) × List (ZMod p)}
    (h : DriverRel.Finished (fun x (v : ZMod p) => x () = v) (fun _ : Unit => a) b) : a = b :=
  Prod.ext (h.1 ()) (self_cols h.2)

/-- C83: a marked run that meets no branch on a secret is the run of the plain VM. -/
theorem C83_plain {c : RefCfg} (hs : c.shared = false) (prog : Program) (ctx : Ctx (ZMod p)) (config : List Bool)
    {fuel fuel' : Nat} (hf : fuel ≤ fuel') (ins : List (String × VmVal (ZMod p) (ZMod p))) (publicInputs : Nat)
    {pub wit : List (ZMod p)} (h : run (ref p c) prog ctx config fuel ins publicInputs = .ok (pub, wit)) :
    run (plain p) prog ctx config fuel' (ins.map (Prod.map id VmVal.val)) publicInputs = .ok (pub, wit) := by
  obtain ⟨a, ha, hf⟩ := (plain_rel hs).run prog ctx config hf (plain_inputs ins) publicInputs _ h
  exact ha.trans (congrArg _ (finished_clear hf))

/-- C83: the same for inputs given by position. -/
theorem C83_plain_flat {c : RefCfg} (hs : c.shared = false) (prog : Program) (ctx : Ctx (ZMod p))
    {fuel fuel' : Nat} (hf : fuel ≤ fuel') (ins : List (VmVal (ZMod p) (ZMod p))) (publicInputs : Nat)
    {pub wit : List (ZMod p)} (h : runFlat (ref p c) prog ctx fuel ins publicInputs = .ok (pub, wit)) :
    runFlat (plain p) prog ctx fuel' (ins.map VmVal.val) publicInputs = .ok (pub, wit) := by
  obtain ⟨a, ha, hf⟩ := (plain_rel hs).runFlat prog ctx hf (plain_flat_inputs ins) publicInputs _ h
  exact ha.trans (congrArg _ (finished_clear hf))

/-- C83: the fuel of the model does not change the result of the plain VM. -/
theorem C83_fuel (prog : Program) (ctx : Ctx (ZMod p)) (config : List Bool) {fuel fuel' : Nat} (hf : fuel ≤ fuel')
    (ins : List (String × ZMod p)) (publicInputs : Nat) {pub wit : List (ZMod p)}
    (h : run (plain p) prog ctx config fuel ins publicInputs = .ok (pub, wit)) :
    run (plain p) prog ctx config fuel' ins publicInputs = .ok (pub, wit) := by
  have hi : InputsHold (fun (x : Unit → ZMod p) v => x () = v) (fun _ : Unit => ins) ins := by
    refine ⟨ins.map fun a _ => a, by funext i; simp [Function.comp_def], ?_⟩
    rw [List.forall₂_map_left_iff]
    exact List.forall₂_same.mpr fun _ _ => ⟨fun _ => rfl, rfl⟩
  obtain ⟨a, ha, hf⟩ := (self_rel (D := plain p) fun _ => rfl).run prog ctx config hf hi publicInputs _ h
  exact ha.trans (congrArg _ (finished_clear hf))

end Clear

section Rep3

variable [Fact p.Prime] [HasSqrt (ZMod p)] [Sample R (ZMod p)] [Codec M (List (ZMod p))]
  [Sample R (BitVec w)] [UintCodec M w] [Yao.YaoRng R] [Yao.YaoNet M] [Codec J (Share (BitVec w))]

/-- C84: every circom program.  If the marked run succeeds with the public values `pub` and the witness `wit`, then the
three parties get `pub` and shares of `wit`.  With `randomized` (the program divides by a secret or takes the square root
of a secret) the alternative is that all of them fail. -/
theorem C84_collaborative (ho : p % 2 = 1) (hw : modBits p + 2 ≤ w) (hH : Yao.HashSeparates (Yao.YaoNet.hash M))
    {c : RefCfg} (prog : Program) (ctx : Ctx (ZMod p)) (config : List Bool) {fuel fuel' : Nat} (hf : fuel ≤ fuel')
    {ins : List (String × VmVal (ZMod p) (ZMod p))} {x : PartyID → List (String × Rep3Val p)}
    (hx : InputsHold (Holds IsShare) x ins) (publicInputs : Nat) {pub wit : List (ZMod p)}
    (h : run (ref p c) prog ctx config fuel ins publicInputs = .ok (pub, wit)) (hst : Corr t st) (hst₁ : Corr t st₁) :
    EnsuresTwoOr (c.randomized = true) (M := M) (J := J)
      (fun i => run (rep3 w) prog ctx config fuel' (x i) publicInputs) st st₁
      (fun z s₀ s₁ => HoldWitness z pub wit ∧ Corr t s₀ ∧ Corr t s₁) :=
  (((rep3_rel ho hw hH).run prog ctx config hf hx publicInputs _ h _ _ hst hst₁).mono fun _ _ _ h =>
    ⟨⟨h.1.1, h.1.2⟩, h.2⟩).ensures

/-- C84: the same for inputs given by position. -/
theorem C84_collaborative_flat (ho : p % 2 = 1) (hw : modBits p + 2 ≤ w) (hH : Yao.HashSeparates (Yao.YaoNet.hash M))
    {c : RefCfg} (prog : Program) (ctx : Ctx (ZMod p)) {fuel fuel' : Nat} (hf : fuel ≤ fuel')
    {ins : List (VmVal (ZMod p) (ZMod p))} {x : PartyID → List (Rep3Val p)}
    (hx : Cols (Holds IsShare) x ins) (publicInputs : Nat) {pub wit : List (ZMod p)}
    (h : runFlat (ref p c) prog ctx fuel ins publicInputs = .ok (pub, wit)) (hst : Corr t st) (hst₁ : Corr t st₁) :
    EnsuresTwoOr (c.randomized = true) (M := M) (J := J)
      (fun i => runFlat (rep3 w) prog ctx fuel' (x i) publicInputs) st st₁
      (fun z s₀ s₁ => HoldWitness z pub wit ∧ Corr t s₀ ∧ Corr t s₁) :=
  (((rep3_rel ho hw hH).runFlat prog ctx hf hx publicInputs _ h _ _ hst hst₁).mono fun _ _ _ h =>
    ⟨⟨h.1.1, h.1.2⟩, h.2⟩).ensures

/-- C83: a circom program that does not branch on secrets, and does not divide by a secret or take its root: the three
parties get the public values of the plain VM and shares of its witness. -/
theorem C83_collaborative (ho : p % 2 = 1) (hw : modBits p + 2 ≤ w) (hH : Yao.HashSeparates (Yao.YaoNet.hash M))
    (prog : Program) (ctx : Ctx (ZMod p)) (config : List Bool) {fuel fuel' : Nat} (hf : fuel ≤ fuel')
    {ins : List (String × VmVal (ZMod p) (ZMod p))} {x : PartyID → List (String × Rep3Val p)}
    (hx : InputsHold (Holds IsShare) x ins) (publicInputs : Nat) {r : List (ZMod p) × List (ZMod p)}
    (h : run (ref p ⟨false, false⟩) prog ctx config fuel ins publicInputs = .ok r) (hst : Corr t st) (hst₁ : Corr t st₁) :
    ∃ pub wit, run (plain p) prog ctx config fuel' (ins.map (Prod.map id VmVal.val)) publicInputs = .ok (pub, wit) ∧
      EnsuresTwo (M := M) (J := J) (fun i => run (rep3 w) prog ctx config fuel' (x i) publicInputs) st st₁
        (fun z s₀ s₁ => HoldWitness z pub wit ∧ Corr t s₀ ∧ Corr t s₁) := by
  refine ⟨r.1, r.2, C83_plain rfl prog ctx config hf ins publicInputs h, ?_⟩
  obtain h | h := C84_collaborative (M := M) (J := J) ho hw hH prog ctx config hf hx publicInputs h hst hst₁
  · exact h
  · cases h.1

end Rep3

/-! ## Instances -/

namespace VmDemo

/-- `signal output out; signal input a; signal input b;` -/
def demoProgram : Program where
  main := "Main"
  amountSignals := 4
  signalToWitness := [0, 1, 2, 3]
  mainInputs := 2
  mainOutputs := 1
  mainInputList := [("a", 2, 1), ("b", 3, 1)]

def demoCtx (body : List OpCode) : Ctx F7 where
  constants := [0, 1, 2]
  strings := 0
  funDecls _ := none
  templDecls _ := some ⟨"Main", 2, 1, 1, [], body⟩
  accel := ⟨true, true, true, true, true⟩
  leakyLogs := false

/-- `for (var i = 0; i != 2; i++) { out += a * b; }` -/
def loopBody : List OpCode :=
  [.pushIndex 0, .loadVars 1, .pushConstant 2, .bin .neq, .jumpIfFalse 18,
    .pushIndex 0, .loadSignals 1, .pushIndex 1, .loadSignals 1, .pushIndex 2, .loadSignals 1, .bin .mul, .bin .add,
      .pushIndex 0, .storeSignals 1,
    .pushIndex 0, .loadVars 1, .pushConstant 1, .bin .add, .pushIndex 0, .storeVars 1] ++ [.jumpBack 21, .ret]

/-- `if (a == b) { out = a; } else { out = a * b; }` -/
def branchBody : List OpCode :=
  [.pushIndex 1, .loadSignals 1, .pushIndex 2, .loadSignals 1, .eqN 1, .branch 6,
    .pushIndex 1, .loadSignals 1, .pushIndex 0, .storeSignals 1, .endTruthyBranch 9,
    .pushIndex 1, .loadSignals 1, .pushIndex 2, .loadSignals 1, .bin .mul, .pushIndex 0, .storeSignals 1, .endFalsyBranch,
    .ret]

def demoInputs : List (String × VmVal F7 F7) := [("a", .arith 3), ("b", .arith 5)]

theorem holds_demoInputs :
    InputsHold (Holds IsShare) (fun i => [("a", (.arith (three7 i) : Rep3Val 7)), ("b", .arith (five7 i))]) demoInputs :=
  ⟨[fun i => ("a", .arith (three7 i)), fun i => ("b", .arith (five7 i))], rfl,
    .cons ⟨fun _ => rfl, holds_three⟩ (.cons ⟨fun _ => rfl, holds_five⟩ .nil)⟩

theorem demo_loop : run (ref 7 ⟨false, false⟩) demoProgram (demoCtx loopBody) [] 100 demoInputs 0 = .ok ([1, 2], [3, 5]) := by
  rfl

theorem demo_branch : run (ref 7 ⟨true, false⟩) demoProgram (demoCtx branchBody) [] 100 demoInputs 0 = .ok ([1, 1], [3, 5]) := by
  rfl

/-- A loop whose body multiplies secrets: the output is `2 * 3 * 5 = 2`. -/
example (t : A2BType) : EnsuresTwo (M := Msg) (J := Res)
    (fun i => run (rep3 8) demoProgram (demoCtx loopBody) [] 100 [("a", .arith (three7 i)), ("b", .arith (five7 i))] 0)
    (statesOf t) (statesOf t) (fun z s₀ s₁ => HoldWitness z [1, 2] [3, 5] ∧ Corr t s₀ ∧ Corr t s₁) := by
  obtain ⟨pub, wit, h1, h2⟩ := C83_collaborative (M := Msg) (J := Res) (w := 8) rfl (by decide) demo_hash demoProgram
    (demoCtx loopBody) [] (le_refl 100) holds_demoInputs 0 demo_loop (corr_statesOf t) (corr_statesOf t)
  have h3 := C83_plain rfl demoProgram (demoCtx loopBody) [] (le_refl 100) demoInputs 0 demo_loop
  rw [h3] at h1
  cases h1
  exact h2

/-- A branch on a secret: the output is `3 * 5 = 1`. -/
example (t : A2BType) : EnsuresTwoOr (False = True) (M := Msg) (J := Res)
    (fun i => run (rep3 8) demoProgram (demoCtx branchBody) [] 200 [("a", .arith (three7 i)), ("b", .arith (five7 i))] 0)
    (statesOf t) (statesOf t) (fun z s₀ s₁ => HoldWitness z [1, 1] [3, 5] ∧ Corr t s₀ ∧ Corr t s₁) := by
  have h := C84_collaborative (M := Msg) (J := Res) (w := 8) rfl (by decide) demo_hash demoProgram
    (demoCtx branchBody) [] (show 100 ≤ 200 by decide) holds_demoInputs 0 demo_branch (corr_statesOf t) (corr_statesOf t)
  simpa using h

end VmDemo

end Verif.Props
