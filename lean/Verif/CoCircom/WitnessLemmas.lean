import Verif.CoCircom.SplitLemmas
import Verif.CircomVm.VmRel
import Mathlib.Data.List.Perm.Basic

/-!
# Lemmas: merged inputs as inputs of the VM
-/

namespace Verif.CoCircom

open CircomVm

/-! ## The order of the inputs does not matter -/

theorem removeKey_eq {α : Type} {k : String} {l : List (String × α)} (hl : (l.map Prod.fst).Nodup) :
    removeKey k l = (getKey k l).map fun v => (v, l.filter fun e => decide (e.1 ≠ k)) := by
  induction l with
  | nil => rfl
  | cons e l ih =>
    obtain ⟨k', a⟩ := e
    obtain ⟨h1, h2⟩ := List.nodup_cons.mp hl
    by_cases hk : k' = k
    · subst hk
      have : l.filter (fun e => decide (e.1 ≠ k')) = l := List.filter_eq_self.mpr fun e he => by
        have : e.1 ≠ k' := fun h => h1 (List.mem_map.mpr ⟨e, he, h⟩)
        simpa using this
      simp only [removeKey, getKey, if_true, Option.map_some, List.filter_cons, ne_eq, not_true, decide_false,
        Bool.false_eq_true, if_false, this]
    · simp only [removeKey, getKey, hk, if_false, ih h2, Option.map_map]
      congr 1
      funext v
      simp [hk]

theorem getKey_perm {α : Type} {k : String} {l l' : List (String × α)} (h : l.Perm l') (hl : (l.map Prod.fst).Nodup) :
    getKey k l = getKey k l' := by
  have hl' : (l'.map Prod.fst).Nodup := ((h.map _).nodup_iff).mp hl
  ext a
  rw [getKey_iff hl, getKey_iff hl', h.mem_iff]

section

variable {m : Type → Type} [Monad m] [LawfulMonad m] {V P A : Type} (D : Driver m V P A)

theorem setInputs_fold_perm (names : List (String × Nat)) (signals : List V) {l l' : List (String × V)} (h : l.Perm l')
    (hl : (l.map Prod.fst).Nodup) :
    (do let r ← names.foldlM (setInput D) (signals, l); pure r.1 : m (List V)) =
      (do let r ← names.foldlM (setInput D) (signals, l'); pure r.1) := by
  induction names generalizing signals l l' with
  | nil => simp
  | cons x names ih =>
    have hl' : (l'.map Prod.fst).Nodup := ((h.map _).nodup_iff).mp hl
    simp only [List.foldlM_cons, setInput, removeKey_eq hl, removeKey_eq hl', ← getKey_perm h hl, bind_assoc]
    cases getKey x.1 l with
    | none => rfl
    | some v =>
      simp only [Option.map_some, bind_assoc, pure_bind]
      refine congrArg _ (funext fun s => ?_)
      exact ih s (h.filter _) (hl.sublist (List.filter_sublist.map _))

theorem run_perm (prog : Program) (ctx : Ctx P) (config : List Bool) (fuel : Nat) {l l' : List (String × V)}
    (h : l.Perm l') (hl : (l.map Prod.fst).Nodup) (n : Nat) :
    run D prog ctx config fuel l n = run D prog ctx config fuel l' n := by
  unfold run setInputs
  refine congrArg _ (funext fun _ => congrArg _ (funext fun s => ?_))
  rw [setInputs_fold_perm D _ s h hl]

end

/-! ## Merged inputs -/

variable {ι A : Type} {p : Nat} {Sh : (ι → A) → ZMod p → Prop}

theorem HoldMap.inputs {r : ι → List (String × InputVal (ZMod p) A)} {m : List (String × InputVal (ZMod p) (ZMod p))}
    (h : HoldMap Sh r m) :
    InputsHold (Holds Sh) (fun i => (r i).map (Prod.map id InputVal.toVm)) (m.map (Prod.map id InputVal.toVm)) := by
  obtain ⟨l, rfl, hl⟩ := h
  refine ⟨l.map fun e i => (e.1, (e.2 i).toVm), by funext i; simp [Function.comp_def, Prod.map], ?_⟩
  rw [List.forall₂_map_left_iff, List.forall₂_map_right_iff]
  refine hl.imp fun e c => ?_
  rintro ⟨h1, h2⟩
  refine ⟨fun _ => h1, ?_⟩
  obtain ⟨_, c⟩ := c
  cases c with
  | pub v =>
    have h2 : e.2 = _ := h2
    simp only [h2]
    rfl
  | shared v =>
    obtain ⟨s, h2, h3⟩ := h2
    exact ⟨s, by simp only [h2]; rfl, h3⟩

theorem HoldMap.count {r : ι → List (String × InputVal (ZMod p) A)} {m : List (String × InputVal (ZMod p) (ZMod p))}
    (h : HoldMap Sh r m) (i : ι) : countPublic (r i) = countPublic m := by
  obtain ⟨l, rfl, hl⟩ := h
  unfold countPublic
  induction hl with
  | nil => rfl
  | @cons e c l m he hl ih =>
    obtain ⟨k, x⟩ := e
    obtain ⟨k', c⟩ := c
    obtain ⟨-, hx⟩ := he
    simp only at hx
    cases c with
    | pub v =>
      have hx : x = _ := hx
      subst hx
      simpa using ih
    | shared v =>
      obtain ⟨s, rfl, -⟩ := hx
      simpa using ih

theorem union_perm {rd : Readers (ZMod p)} {pub : List String} {users : List (List (String × Json))}
    {m m' : List (String × InputVal (ZMod p) (ZMod p))} (h : Spec.Input.Union rd pub users m)
    (h' : Spec.Input.Union rd pub users m') : m.Perm m' := by
  refine (List.perm_ext_iff_of_nodup (List.Nodup.of_map _ h.1) (List.Nodup.of_map _ h'.1)).mpr ?_
  rintro ⟨k, a⟩
  rw [h.2, h'.2]

end Verif.CoCircom
