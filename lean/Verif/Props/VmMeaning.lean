import Verif.CircomVm.SourceSpec
import Verif.Props.VmSource

/-!
# C86: the code of the compiler and the meaning of statements

`Verif/Spec/Circom.lean` defines what statements mean, without stacks and jumps.  The code which the compiler emits for
them (`Stmt.code`) makes the plain VM compute exactly this.
-/

namespace Verif.Props

open Verif.CircomVm Verif.Rep3 Demo
open Spec.Circom (Exec Witness InputAt Inputs start Value)

variable {p : Nat} [Fact p.Prime] [HasSqrt (ZMod p)] {ctx : Ctx (ZMod p)}

/-- C86: the plain VM runs a component, whose code the compiler has emitted for `body`, to the end with the signals `b` if
and only if an execution of `body` ends with these signals. -/
theorem C86_component (ho : p % 2 = 1) (hc : Compiled ctx) (hna : NoAccel ctx) {name : String} {d : TemplateDecl}
    (hd : ctx.templDecls name = some d) {body : Stmt} (hbody : d.body = body.code ++ [.ret]) (o : Nat) (a b : List (ZMod p)) :
    (∃ fuel, runComp (plain p) ctx (loop (plain p) ctx fuel) d o a = .ok b) ↔
      ∃ env', Exec ctx body o (start d a) env' ∧ env'.signals = b := by
  have hf : ∀ {α : Type} e, (plain p).fail (α := α) e = .error e := fun _ => rfl
  have hac := hna _ _ hd
  constructor
  · rintro ⟨n, h⟩
    refine component_meaning ho hc hna ⟨_, hd⟩ hbody (n := n) ?_
    simp only [runComp, hac] at h ⊢
    exact loopC_of_loop rfl h
  · rintro ⟨env', h, rfl⟩
    obtain ⟨-, h⟩ := exec_big ho hna h (fun c hc => by cases hc)
    obtain ⟨_, -, h⟩ := h [] rfl
    obtain ⟨n, h⟩ := component_of_big hac hbody h
    exact ⟨n, runComp_mono hf (fun _ _ h => loop_of_loopC hf h) h⟩

/-- The names of the given inputs are different (they are the keys of a map), and so are the names and the signals of the
inputs of the program; signal 0 is the constant. -/
structure GoodInputs (prog : Program) (ins : List (String × ZMod p)) : Prop where
  given : (ins.map Prod.fst).Nodup
  names : ((prog.mainInputList.flatMap inputNames).map Prod.fst).Nodup
  signals : ((prog.mainInputList.flatMap inputNames).map Prod.snd).Nodup
  zero : ∀ name, ¬ InputAt prog name 0

omit [Fact p.Prime] [HasSqrt (ZMod p)] in
theorem mem_positions {prog : Program} {k : Nat} :
    k ∈ (prog.mainInputList.flatMap inputNames).map Prod.snd ↔ ∃ name, InputAt prog name k := by
  rw [List.mem_map]
  constructor
  · rintro ⟨⟨n, k⟩, h, rfl⟩; exact ⟨n, inputNames_iff.mp h⟩
  · rintro ⟨n, h⟩; exact ⟨⟨n, k⟩, inputNames_iff.mpr h, rfl⟩

theorem inputs_iff {prog : Program} {ins : List (String × ZMod p)} (hg : GoodInputs prog ins) {signals : List (ZMod p)} :
    (∃ s₀, initSignals (plain p) prog = .ok s₀ ∧ setInputs (plain p) prog s₀ ins = .ok signals) ↔
      Inputs prog ins signals := by
  have hf : ∀ {α : Type} e, (plain p).fail (α := α) e = .error e := fun _ => rfl
  have h0 : ∀ s₀, initSignals (plain p) prog = .ok s₀ ↔
      0 < prog.amountSignals ∧ s₀ = (List.replicate prog.amountSignals (0 : ZMod p)).set 0 1 := fun s₀ => by
    unfold initSignals
    rw [orFail_ok hf, writeSlice_one, List.length_replicate]
    rfl
  have h1 : ∀ s₀, setInputs (plain p) prog s₀ ins = .ok signals ↔
      signals.length = s₀.length ∧ (∀ x ∈ prog.mainInputList.flatMap inputNames, ∃ v, (x.1, v) ∈ ins ∧ signals[x.2]? = some v) ∧
      ∀ k, k ∉ (prog.mainInputList.flatMap inputNames).map Prod.snd → signals[k]? = s₀[k]? := fun s₀ => by
    rw [← setInputs_iff hg.given hg.names hg.signals]
    unfold setInputs
    constructor
    · intro h
      obtain ⟨r, h1, h⟩ := bind_ok h
      cases h
      exact ⟨r.2, h1⟩
    · rintro ⟨r, h⟩
      exact Except.bind_ok_iff.mpr ⟨_, h, rfl⟩
  simp only [h0, h1, mem_positions]
  constructor
  · rintro ⟨_, ⟨hp, rfl⟩, h1, h2, h3⟩
    rw [List.length_set, List.length_replicate] at h1
    refine ⟨h1, ?_, fun n k hk => h2 (n, k) (inputNames_iff.mpr hk), fun k hk hk' hn => ?_⟩
    · rw [h3 0 fun ⟨n, h⟩ => hg.zero n h, List.getElem?_set_self (by rwa [List.length_replicate])]
    · rw [h3 k fun ⟨n, h⟩ => hn n h, List.getElem?_set_ne (by omega), List.getElem?_replicate, if_pos hk']
  · rintro ⟨h1, h2, h3, h4⟩
    have hp : 0 < prog.amountSignals := by
      rw [← h1]
      exact (List.getElem?_eq_some_iff.mp h2).1
    refine ⟨_, ⟨hp, rfl⟩, by simp [h1], fun x hx => h3 _ _ (inputNames_iff.mp hx), fun k hk => ?_⟩
    rcases Nat.eq_zero_or_pos k with rfl | hk0
    · rw [h2, List.getElem?_set_self (by rwa [List.length_replicate])]
    · rw [List.getElem?_set_ne (by omega), List.getElem?_replicate]
      split
      · exact h4 k hk0 ‹_› fun n h => hk ⟨n, h⟩
      · rw [List.getElem?_eq_none (by omega)]

/-- C86: the plain VM succeeds on a compiled program with `pub` and `wit` if and only if this is the witness of the
program. -/
theorem C86_witness (ho : p % 2 = 1) (hc : Compiled ctx) (hna : NoAccel ctx) (prog : Program) (config : List Bool)
    {ins : List (String × ZMod p)} (hg : GoodInputs prog ins) (publicInputs : Nat) (pub wit : List (ZMod p)) :
    (∃ fuel, run (plain p) prog ctx config fuel ins publicInputs = .ok (pub, wit)) ↔
      Witness prog ctx ins publicInputs pub wit := by
  constructor
  · rintro ⟨fuel, h⟩
    unfold run at h
    obtain ⟨_, -, h⟩ := bind_ok h
    obtain ⟨s₀, h0, h⟩ := bind_ok h
    obtain ⟨s₁, h1, h⟩ := bind_ok h
    obtain ⟨s₂, h2, h⟩ := bind_ok h
    unfold callMain at h2
    split at h2
    · cases h2
    · rename_i d hd
      obtain ⟨body, hbody⟩ := hc _ _ hd
      obtain ⟨env', he, rfl⟩ := (C86_component ho hc hna hd hbody 1 s₁ s₂).mp ⟨_, h2⟩
      obtain ⟨h3, h4⟩ := finish_iff.mp h
      exact ⟨s₁, d, body, env', (inputs_iff hg).mp ⟨s₀, h0, h1⟩, hd, hbody, he, h3, h4⟩
  · rintro ⟨s₁, d, body, env', hi, hd, hbody, he, h3, h4⟩
    obtain ⟨s₀, h0, h1⟩ := (inputs_iff hg).mpr hi
    obtain ⟨fuel, h2⟩ := (C86_component ho hc hna hd hbody 1 s₁ _).mpr ⟨env', he, rfl⟩
    refine ⟨fuel, ?_⟩
    unfold run
    refine Except.bind_ok_iff.mpr ⟨(), rfl, Except.bind_ok_iff.mpr ⟨_, h0, Except.bind_ok_iff.mpr ⟨_, h1,
      Except.bind_ok_iff.mpr ⟨_, ?_, finish_iff.mpr ⟨h3, h4⟩⟩⟩⟩⟩
    unfold callMain
    rw [hd]
    exact h2

/-! ## Instances -/

namespace VmDemo

/-- `for (var i = 0; i != 2; i++) { out += a * b; }` -/
def loopStmt : Stmt := .loop (.bin .neq (.vars 1 (.lit 0)) (.const 2))
  (.seq (setSig 0 (.bin .add (sig 0) (.bin .mul (sig 1) (sig 2))))
    (.storeVars 1 (.bin .add (.vars 1 (.lit 0)) (.const 1)) (.lit 0)))

example : loopStmt.code ++ [.ret] = loopBody := by decide

theorem good_demo : GoodInputs demoProgram [("a", (3 : F7)), ("b", 5)] where
  given := by decide
  names := by decide
  signals := by decide
  zero := by
    rintro name ⟨n, first, size, hm, h⟩
    simp only [demoProgram, List.mem_cons, Prod.mk.injEq, List.not_mem_nil, or_false] at hm
    rcases h with ⟨-, -, h⟩ | ⟨-, i, -, -, h⟩ <;> rcases hm with ⟨-, hm, -⟩ | ⟨-, hm, -⟩ <;> omega

theorem noAccel_demo (s : Stmt) : NoAccel (demoCtx (s.code ++ [.ret])) := by
  intro name d h
  cases h
  rfl

/-- The VM computes `2 * 3 * 5 = 2`, so this is the meaning of the program. -/
example : Witness demoProgram (demoCtx (loopStmt.code ++ [.ret])) [("a", (3 : F7)), ("b", 5)] 0 [1, 2] [3, 5] :=
  (C86_witness rfl (compiled_demo loopStmt) (noAccel_demo loopStmt) demoProgram [] good_demo 0 _ _).mp ⟨100, by rfl⟩

/-- An execution of the statement `out = a + b`, so the VM computes `3 + 5 = 1`. -/
example : ∃ fuel, run (plain 7) demoProgram (demoCtx ((setSig 0 (.bin .add (sig 1) (sig 2))).code ++ [.ret])) [] fuel
    [("a", 3), ("b", 5)] 0 = .ok ([1, 1], [3, 5]) := by
  refine (C86_witness rfl (compiled_demo _) (noAccel_demo _) demoProgram [] good_demo 0 _ _).mpr ?_
  refine ⟨[1, 0, 3, 5], _, _, ⟨[0], [1, 1, 3, 5], []⟩, ?_, rfl, rfl, ?_, by decide, rfl⟩
  · exact (inputs_iff good_demo).mp ⟨[1, 0, 0, 0], by rfl, by rfl⟩
  · refine .storeSignals (v := [1]) (k := 0) ⟨3, 5, 1, ⟨1, rfl, by decide, by decide⟩, ⟨2, rfl, by decide, by decide⟩,
      by decide, rfl⟩ rfl ⟨by decide, by decide⟩

end VmDemo

end Verif.Props
