import Verif.CircomVm.SourceRef
import Verif.Props.Vm

/-!
# C85: compiled circom programs that branch on secrets

The VM runs both branches of an `if` on a secret, and each assignment keeps the old value or takes the new one with a
multiplexer.  The plain VM jumps.  `Compiled ctx` (`Verif/CircomVm/Source.lean`): the templates are the code which the
compiler emits for some statements.  `runC … noSecret` is the marked run, which also stops where the VM is wrong: within a
branch on a secret, at the creation of a component and at an `if` without else branch whose condition is public and false.
-/

namespace Verif.Props

open Verif.CircomVm Verif.Rep3 PartyID Demo

variable {R M J : Type} {p w : Nat} {t : A2BType} {st st₁ : PartyID → Rep3State R}

section Clear

variable [Fact p.Prime] [HasSqrt (ZMod p)]

/-- C85: for compiled programs, a checked marked run has the result of the plain VM, also where it branches on secrets. -/
theorem C85_plain {c : RefCfg} (prog : Program) {ctx : Ctx (ZMod p)} (hc : Compiled ctx) (config : List Bool) {fuel : Nat}
    (ins : List (String × VmVal (ZMod p) (ZMod p))) (publicInputs : Nat) {pub wit : List (ZMod p)}
    (h : runC (ref p c) noSecret prog ctx config fuel ins publicInputs = .ok (pub, wit)) :
    ∃ enough, ∀ fuel' ≥ enough,
      run (plain p) prog ctx config fuel' (ins.map (Prod.map id VmVal.val)) publicInputs = .ok (pub, wit) := by
  obtain ⟨k, h⟩ := run_clear hc h
  exact ⟨k, fun _ hk => C83_fuel prog ctx config hk _ publicInputs h⟩

end Clear

section Rep3

variable [Fact p.Prime] [HasSqrt (ZMod p)] [Sample R (ZMod p)] [Codec M (List (ZMod p))]
  [Sample R (BitVec w)] [UintCodec M w] [Yao.YaoRng R] [Yao.YaoNet M] [Codec J (Share (BitVec w))]

/-- C85: for compiled programs, three parties get the public values of the plain VM and shares of its witness, also where
they branch on secrets. -/
theorem C85_collaborative (ho : p % 2 = 1) (hw : modBits p + 2 ≤ w) (hH : Yao.HashSeparates (Yao.YaoNet.hash M))
    {c : RefCfg} (prog : Program) {ctx : Ctx (ZMod p)} (hc : Compiled ctx) (config : List Bool) {fuel : Nat}
    {ins : List (String × VmVal (ZMod p) (ZMod p))} {x : PartyID → List (String × Rep3Val p)}
    (hx : InputsHold (Holds IsShare) x ins) (publicInputs : Nat) {r : List (ZMod p) × List (ZMod p)}
    (h : runC (ref p c) noSecret prog ctx config fuel ins publicInputs = .ok r) (hst : Corr t st) (hst₁ : Corr t st₁) :
    ∃ pub wit enough, ∀ fuel' ≥ enough,
      run (plain p) prog ctx config fuel' (ins.map (Prod.map id VmVal.val)) publicInputs = .ok (pub, wit) ∧
      EnsuresTwoOr (c.randomized = true) (M := M) (J := J)
        (fun i => run (rep3 w) prog ctx config fuel' (x i) publicInputs) st st₁
        (fun z s₀ s₁ => HoldWitness z pub wit ∧ Corr t s₀ ∧ Corr t s₁) := by
  obtain ⟨k, hk⟩ := C85_plain prog hc config ins publicInputs h
  exact ⟨r.1, r.2, max k fuel, fun f hf => ⟨hk f (le_of_max_le_left hf),
    C84_collaborative ho hw hH prog ctx config (le_of_max_le_right hf) hx publicInputs (run_of_runC h) hst hst₁⟩⟩

end Rep3

/-! ## Instances -/

namespace VmDemo

/-- `signals[k]` -/
def sig (k : Nat) : Expr (.fld 1) := .signals 1 (.lit k)

/-- `signals[k] = e` -/
def setSig (k : Nat) (e : Expr (.fld 1)) : Stmt := .storeSignals 1 e (.lit k)

/-- `if (a == b) { out = a; } else { out = a * b; }` -/
def branchStmt : Stmt := .ite (.eq 1 (sig 1) (sig 2)) (setSig 0 (sig 1)) (setSig 0 (.bin .mul (sig 1) (sig 2)))

example : branchStmt.code ++ [.ret] = branchBody := by decide

/-- `if (a == b) { if (a == a) { out = 1; } } else { if (b == 5) { out = a * b; } }`, where the inner conditions are
secret too -/
def nestedStmt : Stmt := .ite (.eq 1 (sig 1) (sig 2)) (.ifThen (.eq 1 (sig 1) (sig 1)) (setSig 0 (.const 1)))
  (.ifThen (.eq 1 (sig 2) (.bin .add (sig 1) (.const 2))) (setSig 0 (.bin .mul (sig 1) (sig 2))))

theorem compiled_demo (s : Stmt) : Compiled (demoCtx (s.code ++ [.ret])) := by
  intro name decl h
  cases h
  exact ⟨s, rfl⟩

theorem demo_branchC : runC (ref 7 ⟨true, false⟩) noSecret demoProgram (demoCtx (branchStmt.code ++ [.ret])) [] 100
    demoInputs 0 = .ok ([1, 1], [3, 5]) := by
  rfl

theorem demo_nestedC : runC (ref 7 ⟨true, false⟩) noSecret demoProgram (demoCtx (nestedStmt.code ++ [.ret])) [] 100
    demoInputs 0 = .ok ([1, 1], [3, 5]) := by
  rfl

example : ∃ enough, ∀ fuel' ≥ enough, run (plain 7) demoProgram (demoCtx (nestedStmt.code ++ [.ret])) [] fuel'
    [("a", 3), ("b", 5)] 0 = .ok ([1, 1], [3, 5]) :=
  C85_plain demoProgram (compiled_demo nestedStmt) [] demoInputs 0 demo_nestedC

example (t : A2BType) : ∃ pub wit enough, ∀ fuel' ≥ enough,
    run (plain 7) demoProgram (demoCtx (branchStmt.code ++ [.ret])) [] fuel' [("a", 3), ("b", 5)] 0 = .ok (pub, wit) ∧
    EnsuresTwoOr False (M := Msg) (J := Res) (fun i => run (rep3 8) demoProgram
        (demoCtx (branchStmt.code ++ [.ret])) [] fuel' [("a", .arith (three7 i)), ("b", .arith (five7 i))] 0)
      (statesOf t) (statesOf t) (fun z s₀ s₁ => HoldWitness z pub wit ∧ Corr t s₀ ∧ Corr t s₁) := by
  have h := C85_collaborative (M := Msg) (J := Res) (w := 8) rfl (by decide) demo_hash demoProgram
    (compiled_demo branchStmt) [] holds_demoInputs 0 demo_branchC (corr_statesOf t) (corr_statesOf t)
  simp only [Bool.false_eq_true] at h
  exact h

/-- `if (a == b) { if (0) { out = 1; } out = a; } else { out = a * b; }` -/
def skippedStmt : Stmt := .ite (.eq 1 (sig 1) (sig 2))
  (.seq (.ifThen (.const 0) (setSig 0 (.const 1))) (setSig 0 (sig 1))) (setSig 0 (.bin .mul (sig 1) (sig 2)))

/-- `if (a == b) { assert(0); } else { out = a * b; }` -/
def assertStmt : Stmt := .ite (.eq 1 (sig 1) (sig 2)) (.assert 1 (.const 0)) (setSig 0 (.bin .mul (sig 1) (sig 2)))

/-- `if (a == b) { out = 1 \ (a - 3) } else { out = a * b; }` -/
def divStmt : Stmt := .ite (.eq 1 (sig 1) (sig 2)) (setSig 0 (.bin .intDiv (.const 1) (.const 0)))
  (setSig 0 (.bin .mul (sig 1) (sig 2)))

/-- C85: the checks are needed.  An `if` without else branch whose condition is public and false, within a branch on a
secret: the output of the plain VM is `3 * 5 = 1`, and that of the three parties is `0`. -/
theorem C85_skipped_branch (t : A2BType) :
    run (plain 7) demoProgram (demoCtx (skippedStmt.code ++ [.ret])) [] 100 [("a", 3), ("b", 5)] 0 = .ok ([1, 1], [3, 5]) ∧
    EnsuresTwo (M := Msg) (J := Res) (fun i => run (rep3 8) demoProgram
        (demoCtx (skippedStmt.code ++ [.ret])) [] 100 [("a", .arith (three7 i)), ("b", .arith (five7 i))] 0)
      (statesOf t) (statesOf t) (fun z s₀ s₁ => HoldWitness z [1, 0] [3, 5] ∧ Corr t s₀ ∧ Corr t s₁) := by
  refine ⟨rfl, ?_⟩
  have h := C84_collaborative (M := Msg) (J := Res) (w := 8) rfl (by decide) demo_hash demoProgram
    (demoCtx (skippedStmt.code ++ [.ret])) [] (le_refl 100) holds_demoInputs 0
    (show run (ref 7 ⟨true, false⟩) _ _ [] 100 demoInputs 0 = .ok ([1, 0], [3, 5]) from rfl)
    (corr_statesOf t) (corr_statesOf t)
  simp only [Bool.false_eq_true] at h
  exact h.ensures

/-- C85: an assertion in the branch that is not taken is checked. -/
theorem C85_untaken_assert :
    run (plain 7) demoProgram (demoCtx (assertStmt.code ++ [.ret])) [] 100 [("a", 3), ("b", 5)] 0 = .ok ([1, 1], [3, 5]) ∧
    ∃ e, run (ref 7 ⟨true, false⟩) demoProgram (demoCtx (assertStmt.code ++ [.ret])) [] 100 demoInputs 0 = .error e :=
  ⟨rfl, _, rfl⟩

/-- C85: an integer division by zero in the branch that is not taken fails. -/
theorem C85_untaken_division :
    run (plain 7) demoProgram (demoCtx (divStmt.code ++ [.ret])) [] 100 [("a", 3), ("b", 5)] 0 = .ok ([1, 1], [3, 5]) ∧
    ∃ e, run (ref 7 ⟨true, false⟩) demoProgram (demoCtx (divStmt.code ++ [.ret])) [] 100 demoInputs 0 = .error e :=
  ⟨rfl, _, rfl⟩

end VmDemo

end Verif.Props
