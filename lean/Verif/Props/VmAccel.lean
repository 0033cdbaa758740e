import Verif.CircomVm.AccelLemmas
import Verif.Props.Vm

/-!
# C87: the accelerators of the circom VM

`Verif/Spec/Accel.lean` has the signals and constraints of the circomlib templates `IsZero`, `Num2Bits` and `AddBits`.  With
the accelerators the VM does not run the code of these templates.
-/

namespace Verif.Props

open Verif.CircomVm Verif.Rep3 PartyID Demo
open Spec.Accel

section Plain

variable {p : Nat} [Fact p.Prime] [HasSqrt (ZMod p)] {ctx : Ctx (ZMod p)} {d : TemplateDecl}
  {run : St (ZMod p) → Except Err (List (ZMod p))} {o : Nat} {a b : List (ZMod p)}

/-- C87: the accelerator of `IsZero` assigns the signals which the template assigns. -/
theorem C87_isZero (h : ctx.accel.iszero = true) (hn : d.name = "IsZero") (hout : d.outputSignals = 1)
    (hin : d.inputSignals = 1) :
    runComp (plain p) ctx run d o a = .ok b ↔ ∃ inp inv out, Frame a b o [out] [inp] [inv] ∧ IsZero inp inv out := by
  have hacc : accelOf ctx d = some .isZero := by simp [accelOf, hn, h]
  simp only [runComp, hacc]
  rw [accelerate_iff]
  constructor
  · rintro ⟨outs, ins, mids, -, -, h, hf⟩
    obtain ⟨inp, inv, out, rfl, rfl, rfl, h'⟩ := accelIsZero_iff.mp h
    exact ⟨inp, inv, out, hf, h'⟩
  · rintro ⟨inp, inv, out, hf, h⟩
    exact ⟨[out], [inp], [inv], hout.symm, hin.symm, accelIsZero_iff.mpr ⟨inp, inv, out, rfl, rfl, rfl, h⟩, hf⟩

/-- C87: ... and they satisfy the constraints; the output says whether the input is zero. -/
theorem C87_isZero_constraints (h : ctx.accel.iszero = true) (hn : d.name = "IsZero") (hout : d.outputSignals = 1)
    (hin : d.inputSignals = 1) (hr : runComp (plain p) ctx run d o a = .ok b) :
    ∃ inp inv out, Frame a b o [out] [inp] [inv] ∧ IsZeroConstraints inp inv out ∧ out = if inp = 0 then 1 else 0 := by
  obtain ⟨inp, inv, out, hf, h⟩ := (C87_isZero h hn hout hin).mp hr
  exact ⟨inp, inv, out, hf, isZero_constraints h⟩

/-- C87: the accelerator of `Num2Bits` assigns the signals which the template assigns. -/
theorem C87_num2bits (h : ctx.accel.num2bits = true) (hn : d.name = "Num2Bits") (hin : d.inputSignals = 1) :
    runComp (plain p) ctx run d o a = .ok b ↔
      ∃ inp out, out.length = d.outputSignals ∧ Frame a b o out [inp] [] ∧ Num2Bits inp out := by
  have hacc : accelOf ctx d = some .num2bits := by simp [accelOf, hn, h]
  simp only [runComp, hacc]
  rw [accelerate_iff]
  constructor
  · rintro ⟨outs, ins, mids, hl, -, h, hf⟩
    obtain ⟨inp, rfl, -, rfl, h'⟩ := accelNum2bits_iff.mp h
    exact ⟨inp, outs, hl, hf, h'⟩
  · rintro ⟨inp, out, hl, hf, h⟩
    exact ⟨out, [inp], [], hl, hin.symm, accelNum2bits_iff.mpr ⟨inp, rfl, hl, rfl, h⟩, hf⟩

/-- C87: ... and they satisfy the constraints exactly if the input has so many bits.  For other inputs the accelerator
succeeds nevertheless, while the template has a constraint that fails. -/
theorem C87_num2bits_constraints (h : ctx.accel.num2bits = true) (hn : d.name = "Num2Bits") (hin : d.inputSignals = 1)
    (hr : runComp (plain p) ctx run d o a = .ok b) :
    ∃ inp out, out.length = d.outputSignals ∧ Frame a b o out [inp] [] ∧
      (Num2BitsConstraints inp out ↔ inp.val < 2 ^ d.outputSignals) := by
  obtain ⟨inp, out, hl, hf, h⟩ := (C87_num2bits h hn hin).mp hr
  exact ⟨inp, out, hl, hf, hl ▸ num2bits_constraints h⟩

/-- C87: the accelerator of `AddBits` assigns the signals which the template assigns; it refuses inputs of `modBits p - 1`
or more bits. -/
theorem C87_addbits (h : ctx.accel.addbits = true) (hn : d.name = "AddBits") (hin : d.inputSignals = 2 * d.outputSignals) :
    runComp (plain p) ctx run d o a = .ok b ↔ d.outputSignals < modBits p - 1 ∧
      ∃ x y carry out, x.length = d.outputSignals ∧ y.length = d.outputSignals ∧
        Frame a b o out (x ++ y) [carry] ∧ AddBits x y carry out := by
  have hacc : accelOf ctx d = some .addbits := by simp [accelOf, hn, h]
  simp only [runComp, hacc]
  rw [accelerate_iff]
  constructor
  · rintro ⟨outs, ins, mids, hl, hl', h, hf⟩
    obtain ⟨x, y, carry, rfl, h1, rfl, h2, h⟩ := accelAddbits_iff.mp h
    have h3 := h.1
    exact ⟨by omega, x, y, carry, outs, by omega, by omega, hf, h⟩
  · rintro ⟨h2, x, y, carry, out, h3, h4, hf, h⟩
    exact ⟨out, x ++ y, [carry], h.1.trans h3, by rw [List.length_append]; omega,
      accelAddbits_iff.mpr ⟨x, y, carry, rfl, by omega, rfl, by omega, h⟩, hf⟩

/-- C87: ... and if its inputs are bits, they satisfy the constraints. -/
theorem C87_addbits_constraints (h : ctx.accel.addbits = true) (hn : d.name = "AddBits")
    (hin : d.inputSignals = 2 * d.outputSignals) (hr : runComp (plain p) ctx run d o a = .ok b) :
    ∃ x y carry out, x.length = d.outputSignals ∧ y.length = d.outputSignals ∧ Frame a b o out (x ++ y) [carry] ∧
      ((∀ c ∈ x ++ y, c = 0 ∨ c = 1) → AddBitsConstraints x y carry out) := by
  obtain ⟨h2, x, y, carry, out, h3, h4, hf, h⟩ := (C87_addbits h hn hin).mp hr
  exact ⟨x, y, carry, out, h3, h4, hf, fun hb => addBits_constraints (by omega) (by omega) hb h⟩

end Plain

section Rep3

variable {R M J : Type} {p w : Nat} {t : A2BType} {st st₁ : PartyID → Rep3State R}
  [Fact p.Prime] [HasSqrt (ZMod p)] [Sample R (ZMod p)] [Codec M (List (ZMod p))]
  [Sample R (BitVec w)] [UintCodec M w] [Yao.YaoRng R] [Yao.YaoNet M] [Codec J (Share (BitVec w))]

/-- C87: a component with an accelerator.  The parties hold the signals `vs`, each of them public or shared.  They get the
signals which the plain VM has after its accelerator.  For `IsZero` the alternative is that all of them fail (the random
mask of the division may be zero). -/
theorem C87_collaborative (ho : p % 2 = 1) (hw : modBits p + 2 ≤ w) (hH : Yao.HashSeparates (Yao.YaoNet.hash M))
    {ctx : Ctx (ZMod p)} {d : TemplateDecl} {acc : Accel} (hacc : accelOf ctx d = some acc) {o : Nat}
    {run : St (ZMod p) → Except Err (List (ZMod p))}
    {run' : St (Rep3Val p) → MPC₂ PartyID (Rep3State R) M J (List (Rep3Val p))}
    {vs : List (VmVal (ZMod p) (ZMod p))} {x : PartyID → List (Rep3Val p)} (hx : Cols (Holds IsShare) x vs)
    {b : List (ZMod p)} (h : runComp (plain p) ctx run d o (vs.map VmVal.val) = .ok b)
    (hst : Corr t st) (hst₁ : Corr t st₁) :
    EnsuresTwoOr (acc = .isZero) (M := M) (J := J) (fun i => runComp (rep3 w) ctx run' d o (x i)) st st₁
      (fun z s₀ s₁ => (∃ vs', Cols (Holds IsShare) z vs' ∧ vs'.map VmVal.val = b) ∧ Corr t s₀ ∧ Corr t s₁) := by
  obtain ⟨c, hc⟩ : ∃ c : RefCfg, c.randomized = true ↔ acc = .isZero := by
    by_cases h : acc = .isZero
    · exact ⟨⟨false, true⟩, by simp [h]⟩
    · exact ⟨⟨false, false⟩, by simp [h]⟩
  simp only [runComp, hacc] at h ⊢
  obtain ⟨vs', h1, h2⟩ := ref_accelerate (c := c) hc.mpr h
  obtain ⟨l, rfl, rfl⟩ := cols_iff.mp hx
  have := (((rep3_rel (c := c) (M := M) (J := J) (ty := t) ho hw hH).accelerate d o l acc) _ h1 st st₁ hst hst₁).mono
    (Q' := fun z s₀ s₁ => (∃ vs', Cols (Holds IsShare) z vs' ∧ vs'.map VmVal.val = b) ∧ Corr t s₀ ∧ Corr t s₁)
    fun z s₀ s₁ hz => ⟨⟨vs', cols_iff.mpr hz.1, h2⟩, hz.2⟩
  rw [← hc]
  exact this.ensures

end Rep3

/-! ## Instances -/

namespace VmDemo

/-- A context with all accelerators. -/
def accelCtx : Ctx F7 := demoCtx []

/-- `5` is the inverse of `3`. -/
example : runComp (plain 7) accelCtx (fun _ => .ok []) ⟨"IsZero", 1, 1, 0, [], []⟩ 1 [1, 0, 3, 0, 6] = .ok [1, 0, 3, 5, 6] := by
  refine (C87_isZero rfl rfl rfl rfl).mpr ⟨3, 5, 0, ⟨[1], [0], [0], [6], rfl, rfl, rfl, rfl, rfl⟩, ?_, by decide⟩
  rw [if_pos (by decide)]
  exact eq_div_of_mul_eq (by decide) (by decide)

example : runComp (plain 7) accelCtx (fun _ => .ok []) ⟨"Num2Bits", 1, 3, 0, [], []⟩ 1 [1, 0, 0, 0, 6] =
    .ok [1, 0, 1, 1, 6] := by rfl

/-- Two bits are not enough for six: the signals do not satisfy the constraints. -/
example : runComp (plain 7) accelCtx (fun _ => .ok []) ⟨"Num2Bits", 1, 2, 0, [], []⟩ 1 [1, 0, 0, 6] = .ok [1, 0, 1, 6] ∧
    ¬ Num2BitsConstraints (6 : F7) [0, 1] := by
  refine ⟨rfl, fun h => ?_⟩
  have := h.2
  simp [Finset.sum_range_succ] at this
  exact absurd this (by decide)

/-- `1 + 1 = 10` in binary. -/
example : runComp (plain 7) accelCtx (fun _ => .ok []) ⟨"AddBits", 2, 1, 0, [], []⟩ 1 [1, 0, 1, 1, 0] = .ok [1, 0, 1, 1, 1] := by
  rfl

end VmDemo

end Verif.Props
