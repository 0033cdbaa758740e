import Verif.CircomVm.Driver
import Verif.Rep3.Cols

/-!
# What the values of the parties stand for
-/

namespace Verif.CircomVm

/-- Values in the clear, marked public or secret. -/
abbrev RefVal (p : Nat) := VmVal (ZMod p) (ZMod p)

/-- The values of the parties represent `v`: all parties hold the same public value, or all hold a share and these are a
sharing (in the sense of `Sh`) of the secret value. -/
def Holds {ι F A : Type} (Sh : (ι → A) → F → Prop) (x : ι → VmVal F A) : VmVal F F → Prop
  | .pub c => x = fun _ => .pub c
  | .arith c => ∃ s, (x = fun i => .arith (s i)) ∧ Sh s c

theorem ok_inj {ε α : Type} {a b : α} : (Except.ok a : Except ε α) = .ok b ↔ a = b := by
  constructor
  · intro h; cases h; rfl
  · rintro rfl; rfl

theorem map_ok {ε α β : Type} {f : α → β} {x : Except ε α} {b : β} (h : f <$> x = .ok b) :
    ∃ a, x = .ok a ∧ f a = b := by
  cases x with
  | error e => cases h
  | ok a => exact ⟨a, rfl, by simpa using ok_inj.mp h⟩

theorem bind_ok {ε α β : Type} {f : α → Except ε β} {x : Except ε α} {b : β} (h : x >>= f = .ok b) :
    ∃ a, x = .ok a ∧ f a = .ok b := by
  cases x with
  | error e => cases h
  | ok a => exact ⟨a, rfl, h⟩

section

variable {ι A : Type} {p : Nat} {Sh : (ι → A) → ZMod p → Prop} {c : RefCfg} {a b z : RefVal p}

theorem Holds.arith {s : ι → A} {v : ZMod p} (h : Sh s v) : Holds Sh (fun i => VmVal.arith (s i)) (.arith v) :=
  ⟨s, rfl, h⟩

theorem refBin_arith {op : BinOp} (hs : (a.isArith || b.isArith) = true) (h : refBin c op a b = .ok z) :
    supported c op a b = true ∧ ∃ v, plainBin op a.val b.val = .ok v ∧
      z = if publicResult op a b then .pub v else .arith v := by
  have key : (if supported c op a b then
      (if publicResult op a b then VmVal.pub else VmVal.arith) <$> plainBin op a.val b.val
    else refuse) = .ok z := by
    cases a <;> cases b <;> first | exact h | simp [VmVal.isArith] at hs
  by_cases hc : supported c op a b = true
  · rw [if_pos hc] at key
    obtain ⟨v, hv, rfl⟩ := map_ok key
    refine ⟨hc, v, hv, ?_⟩
    by_cases hp : publicResult op a b = true <;> simp [hp]
  · rw [if_neg hc] at key
    cases key

/-- The cases of a binary operation. -/
theorem refBin_elim {op : BinOp} {C : (ι → VmVal (ZMod p) A) → (ι → VmVal (ZMod p) A) → RefVal p → Prop}
    {x y : ι → VmVal (ZMod p) A} (hx : Holds Sh x a) (hy : Holds Sh y b) (h : refBin c op a b = .ok z)
    (hpp : ∀ u v r, plainBin op u v = .ok r → C (fun _ => .pub u) (fun _ => .pub v) (.pub r))
    (hps : ∀ u v t r, Sh t v → supported c op (.pub u) (.arith v) = true → plainBin op u v = .ok r →
      C (fun _ => .pub u) (fun i => .arith (t i)) (if publicResult op (.pub u) (.arith v) then .pub r else .arith r))
    (hsp : ∀ u v s r, Sh s u → supported c op (.arith u) (.pub v) = true → plainBin op u v = .ok r →
      C (fun i => .arith (s i)) (fun _ => .pub v) (if publicResult op (.arith u) (.pub v) then .pub r else .arith r))
    (hss : ∀ u v s t r, Sh s u → Sh t v → supported c op (.arith u) (.arith v) = true → plainBin op u v = .ok r →
      C (fun i => .arith (s i)) (fun i => .arith (t i))
        (if publicResult op (.arith u) (.arith v) then .pub r else .arith r)) : C x y z := by
  cases a with
  | pub a =>
    cases b with
    | pub b =>
      cases hx; cases hy
      obtain ⟨r, hr, rfl⟩ := map_ok (h : VmVal.pub <$> plainBin op a b = .ok z)
      exact hpp _ _ _ hr
    | arith b =>
      cases hx; obtain ⟨t, rfl, ht⟩ := hy
      obtain ⟨h1, v, hv, rfl⟩ := refBin_arith rfl h
      exact hps _ _ _ _ ht h1 hv
  | arith a =>
    obtain ⟨s, rfl, hs⟩ := hx
    cases b with
    | pub b =>
      cases hy
      obtain ⟨h1, v, hv, rfl⟩ := refBin_arith rfl h
      exact hsp _ _ _ _ hs h1 hv
    | arith b =>
      obtain ⟨t, rfl, ht⟩ := hy
      obtain ⟨h1, v, hv, rfl⟩ := refBin_arith rfl h
      exact hss _ _ _ _ _ hs ht h1 hv

end

end Verif.CircomVm
