import Verif.Spec.Input
import Verif.CircomVm.Sim
import Mathlib.Data.List.Forall2
import Mathlib.Data.List.Nodup
import Std.Data.String.ToNat

/-!
# Lemmas about reading, splitting and merging inputs
-/

namespace Verif.CoCircom

open Spec.Input (Magnitude Scalar Leaves Entry Readable Gives GoodNames)

/-! ## Reading -/

section

variable {p : Nat} {rd : Readers (ZMod p)}

theorem parsePositive_iff {s : List Char} {v : ZMod p} : parsePositive rd s = some v ↔ Magnitude rd s v := by
  constructor
  · intro h
    unfold parsePositive at h
    split at h
    · obtain ⟨n, h1, rfl⟩ := Option.map_eq_some_iff.mp h
      have := Magnitude.hex h1
      split
      · rwa [ZMod.natCast_mod]
      · exact this
    · exact .dec (by simpa using ‹_›) h
  · rintro (h | ⟨h1, h2⟩)
    · simp only [parsePositive, h, Option.map_some, Option.some.injEq]
      split
      · exact ZMod.natCast_mod _ _
      · rfl
    · unfold parsePositive
      split
      · exact absurd rfl (h1 _)
      · exact h2

theorem parseSigned_iff {s : String} {v : ZMod p} : parseSigned rd s.toList = some v ↔ Scalar rd (.str s) v := by
  constructor
  · intro h
    unfold parseSigned at h
    split at h
    · rename_i r hr
      obtain ⟨n, h1, rfl⟩ := Option.map_eq_some_iff.mp h
      exact .neg hr (parsePositive_iff.mp h1)
    · rename_i hr
      exact .pos hr (parsePositive_iff.mp h)
  · rintro (_ | _ | ⟨h1, h2⟩ | ⟨h1, h2⟩)
    · unfold parseSigned
      split
      · exact absurd ‹_› (h1 _)
      · exact parsePositive_iff.mpr h2
    · simp [parseSigned, h1, parsePositive_iff.mpr h2]

theorem parseField_iff {s : String} {v : ZMod p} : parseField rd (.str s) = .ok v ↔ Scalar rd (.str s) v := by
  rw [← parseSigned_iff]
  simp only [parseField]
  cases parseSigned rd s.toList <;> simp

theorem scalar_bool {b : Bool} {v : ZMod p} : Scalar rd (.bool b) v ↔ v = ofBool b := by
  constructor
  · rintro (_ | _)
    · rfl
    · rfl
  · rintro rfl
    cases b
    · exact .false
    · exact .true

theorem map_ok_iff {α β : Type} {x : Except Err α} {f : α → β} {b : β} : x.map f = .ok b ↔ ∃ a, x = .ok a ∧ f a = b := by
  cases x <;> simp [Except.map]

/-- What stands for one element of an array. -/
theorem parseElem_iff {j : Json} {js : List Json} {xs : List (Option (ZMod p))}
    (hn : ∀ l x, j = .arr l → parseArray rd l = .ok x → Leaves rd l x) {x : List (Option (ZMod p))}
    (h : parseElem rd j = .ok x) (hl : Leaves rd js xs) : Leaves rd (j :: js) (x ++ xs) := by
  cases j with
  | arr l => rw [parseElem] at h; exact .nested (hn l x rfl h) hl
  | bool b =>
    simp only [parseElem] at h
    cases h
    exact .value (by simp) (scalar_bool.mpr rfl) hl
  | str s =>
    simp only [parseElem] at h
    split at h
    · subst ‹s = "?"›
      cases h
      exact .absent hl
    · obtain ⟨v, hv, rfl⟩ := map_ok_iff.mp h
      exact .value (by simpa using ‹¬ s = "?"›) (parseField_iff.mp hv) hl
  | _ => simp [parseElem, parseField, Except.map] at h

theorem leaves_of_parse : ∀ (js : List Json) {xs : List (Option (ZMod p))}, parseArray rd js = .ok xs → Leaves rd js xs
  | [], _, h => by
    simp only [parseArray] at h
    cases h
    exact .nil
  | .arr l :: js, _, h => by
    simp only [parseArray] at h
    obtain ⟨x, h1, h⟩ := CircomVm.bind_ok h
    obtain ⟨xs, h2, h⟩ := CircomVm.bind_ok h
    cases h
    rw [parseElem] at h1
    exact .nested (leaves_of_parse l h1) (leaves_of_parse js h2)
  | .bool b :: js, _, h => by
    simp only [parseArray] at h
    obtain ⟨x, h1, h⟩ := CircomVm.bind_ok h
    obtain ⟨xs, h2, h⟩ := CircomVm.bind_ok h
    cases h
    exact parseElem_iff (by simp) h1 (leaves_of_parse js h2)
  | .str s :: js, _, h => by
    simp only [parseArray] at h
    obtain ⟨x, h1, h⟩ := CircomVm.bind_ok h
    obtain ⟨xs, h2, h⟩ := CircomVm.bind_ok h
    cases h
    exact parseElem_iff (by simp) h1 (leaves_of_parse js h2)
  | .null :: js, _, h => by simp [parseArray, parseElem, parseField, Except.map, bind, Except.bind] at h
  | .number :: js, _, h => by simp [parseArray, parseElem, parseField, Except.map, bind, Except.bind] at h
  | .object :: js, _, h => by simp [parseArray, parseElem, parseField, Except.map, bind, Except.bind] at h

theorem parseArray_iff {js : List Json} {xs : List (Option (ZMod p))} : parseArray rd js = .ok xs ↔ Leaves rd js xs := by
  refine ⟨leaves_of_parse js, fun h => ?_⟩
  have hc : ∀ {j : Json} {js x xs}, parseElem rd j = .ok x → parseArray rd js = .ok xs →
      parseArray rd (j :: js) = .ok (x ++ xs) := fun h1 h2 => by
    simp [parseArray, h1, h2, bind, Except.bind]
  induction h with
  | nil => simp [parseArray]
  | nested _ _ ih1 ih2 => exact hc (by rw [parseElem]; exact ih1) ih2
  | absent _ ih => exact hc (x := [none]) (by simp [parseElem]) ih
  | @value j v js xs hj hs _ ih =>
    refine hc (x := [some v]) ?_ ih
    cases hs with
    | true => simp [parseElem, ofBool]
    | false => simp [parseElem, ofBool]
    | pos h1 h2 =>
      have : ¬ _ = "?" := fun e => hj (congrArg _ e)
      simp [parseElem, this, parseField_iff.mpr (.pos h1 h2), Except.map]
    | neg h1 h2 =>
      have : ¬ _ = "?" := fun e => hj (congrArg _ e)
      simp [parseElem, this, parseField_iff.mpr (.neg h1 h2), Except.map]

theorem Leaves.unique {js : List Json} {xs ys : List (Option (ZMod p))} (h : Leaves rd js xs) (h' : Leaves rd js ys) :
    xs = ys := by
  have := (parseArray_iff.mpr h).symm.trans (parseArray_iff.mpr h')
  cases this
  rfl

theorem mem_elemEntries {name : String} {i : Nat} {xs : List (Option (ZMod p))} {k : String} {v : ZMod p} :
    (k, v) ∈ elemEntries name i xs ↔ ∃ j, xs[j]? = some (some v) ∧ k = elemName name (i + j) := by
  induction xs generalizing i with
  | nil => simp [elemEntries]
  | cons x xs ih =>
    have step : (∃ j, (x :: xs)[j]? = some (some v) ∧ k = elemName name (i + j)) ↔
        (x = some v ∧ k = elemName name i) ∨ ∃ j, xs[j]? = some (some v) ∧ k = elemName name (i + 1 + j) := by
      constructor
      · rintro ⟨j | j, h1, h2⟩
        · exact .inl ⟨by simpa using h1, h2⟩
        · exact .inr ⟨j, by simpa using h1, by rw [h2]; congr 1; omega⟩
      · rintro (⟨h1, h2⟩ | ⟨j, h1, h2⟩)
        · exact ⟨0, by simpa using h1, h2⟩
        · exact ⟨j + 1, by simpa using h1, by rw [h2]; congr 1; omega⟩
    rw [step, ← ih]
    cases x with
    | none => simp [elemEntries]
    | some w =>
      simp only [elemEntries, List.mem_cons, Prod.mk.injEq, Option.some.injEq]
      constructor
      · rintro (⟨h1, h2⟩ | h)
        · exact .inl ⟨h2.symm, h1⟩
        · exact .inr h
      · rintro (⟨h1, h2⟩ | h)
        · exact .inl ⟨h2, h1.symm⟩
        · exact .inr h

theorem elemName_inj {name : String} {i j : Nat} (h : elemName name i = elemName name j) : i = j := by
  have h := congrArg String.toList h
  simp only [elemName, String.toList_append, List.append_assoc, List.append_cancel_left_eq] at h
  have h : (toString i).toList = (toString j).toList := List.append_cancel_right h
  have h : toString i = toString j := String.toList_inj.mp h
  exact Nat.repr_inj.mp h

theorem elemEntries_nodup (name : String) (i : Nat) (xs : List (Option (ZMod p))) :
    ((elemEntries name i xs).map Prod.fst).Nodup := by
  induction xs generalizing i with
  | nil => simp [elemEntries]
  | cons x xs ih =>
    cases x with
    | none => exact ih _
    | some w =>
      refine List.nodup_cons.mpr ⟨fun h => ?_, ih _⟩
      obtain ⟨⟨k, v⟩, h1, h2⟩ := List.mem_map.mp h
      obtain ⟨j, -, h3⟩ := mem_elemEntries.mp h1
      have := elemName_inj (h3.symm.trans h2)
      omega

theorem parseEntry_iff {name : String} {j : Json} : (∃ l, parseEntry rd name j = .ok l) ↔ Readable rd j := by
  cases j with
  | arr l =>
    simp only [parseEntry, map_ok_iff]
    constructor
    · rintro ⟨_, xs, h, -⟩
      exact .inr ⟨l, xs, rfl, parseArray_iff.mp h⟩
    · rintro (⟨v, h⟩ | ⟨_, xs, h, h2⟩)
      · cases h
      · cases h
        exact ⟨_, xs, parseArray_iff.mpr h2, rfl⟩
  | bool b => exact ⟨fun _ => .inl ⟨_, scalar_bool.mpr rfl⟩, fun _ => ⟨_, rfl⟩⟩
  | str s =>
    simp only [parseEntry, map_ok_iff]
    constructor
    · rintro ⟨_, v, h, -⟩
      exact .inl ⟨v, parseField_iff.mp h⟩
    · rintro (⟨v, h⟩ | ⟨_, xs, h, h2⟩)
      · exact ⟨_, v, parseField_iff.mpr h, rfl⟩
      · cases h
  | _ =>
    simp only [parseEntry, map_ok_iff, parseField]
    constructor
    · rintro ⟨_, v, h, -⟩
      cases h
    · rintro (⟨v, h⟩ | ⟨_, xs, h, h2⟩)
      · cases h
      · cases h

theorem parseEntry_mem {name : String} {j : Json} {l : List (String × ZMod p)} (h : parseEntry rd name j = .ok l)
    {k : String} {v : ZMod p} : (k, v) ∈ l ↔ Entry rd name j k v := by
  cases j with
  | arr js =>
    simp only [parseEntry, map_ok_iff] at h
    obtain ⟨xs, h1, rfl⟩ := h
    have h1 := parseArray_iff.mp h1
    rw [mem_elemEntries]
    constructor
    · rintro ⟨i, h2, rfl⟩
      rw [Nat.zero_add]
      exact .elem h1 h2
    · rintro (h | ⟨h2, h3⟩)
      · cases h
      · cases Leaves.unique h1 h2
        exact ⟨_, h3, by rw [Nat.zero_add]; rfl⟩
  | bool b =>
    cases h
    simp only [List.mem_singleton, Prod.mk.injEq]
    constructor
    · rintro ⟨rfl, rfl⟩
      exact .scalar (scalar_bool.mpr rfl)
    · rintro (h | _)
      exact ⟨rfl, scalar_bool.mp h⟩
  | str s =>
    simp only [parseEntry, map_ok_iff] at h
    obtain ⟨w, h1, rfl⟩ := h
    simp only [List.mem_singleton, Prod.mk.injEq]
    constructor
    · rintro ⟨rfl, rfl⟩
      exact .scalar (parseField_iff.mp h1)
    · rintro (h | _)
      have := h1.symm.trans (parseField_iff.mpr h)
      cases this
      exact ⟨rfl, rfl⟩
  | _ =>
    simp only [parseEntry, map_ok_iff, parseField] at h
    obtain ⟨w, h1, -⟩ := h
    cases h1

theorem parseEntry_nodup {name : String} {j : Json} {l : List (String × ZMod p)} (h : parseEntry rd name j = .ok l) :
    (l.map Prod.fst).Nodup := by
  cases j with
  | arr js =>
    simp only [parseEntry, map_ok_iff] at h
    obtain ⟨xs, h1, rfl⟩ := h
    exact elemEntries_nodup _ _ _
  | bool b => cases h; simp
  | _ =>
    simp only [parseEntry, map_ok_iff] at h
    obtain ⟨w, h1, rfl⟩ := h
    simp

theorem origName_self {name : String} (h : '[' ∉ name.toList) : origName name = name := by
  rw [origName, ← List.append_nil name.toList, List.takeWhile_append_of_pos, List.takeWhile_nil, List.append_nil]
  · exact String.ofList_toList
  · intro c hc
    have : c ≠ '[' := fun e => h (e ▸ hc)
    simpa using this

theorem origName_elem {name : String} (h : '[' ∉ name.toList) (i : Nat) :
    origName (name ++ "[" ++ toString i ++ "]") = name := by
  have e : (name ++ "[" ++ toString i ++ "]").toList = name.toList ++ ('[' :: ((toString i).toList ++ [']'])) := by
    simp [String.toList_append]
  rw [origName, e, List.takeWhile_append_of_pos, List.takeWhile_cons_of_neg (by simp), List.append_nil]
  · exact String.ofList_toList
  · intro c hc
    have : c ≠ '[' := fun e => h (e ▸ hc)
    simpa using this

theorem entry_origName {name : String} {j : Json} {k : String} {v : ZMod p} (h : Entry rd name j k v)
    (hn : '[' ∉ name.toList) : origName k = name := by
  cases h with
  | scalar _ => exact origName_self hn
  | elem _ _ => exact origName_elem hn _

end

/-! ## Maps -/

section

variable {A : Type} {k : String} {a : A} {l : List (String × A)}

theorem getKey_none : getKey k l = none ↔ k ∉ l.map Prod.fst := by
  induction l with
  | nil => simp [getKey]
  | cons e l ih =>
    obtain ⟨k', a'⟩ := e
    by_cases h : k' = k
    · simp [getKey, h]
    · simp [getKey, h, ih, Ne.symm h]

theorem getKey_mem (h : getKey k l = some a) : (k, a) ∈ l := by
  induction l with
  | nil => cases h
  | cons e l ih =>
    obtain ⟨k', a'⟩ := e
    by_cases hk : k' = k
    · simp [getKey, hk] at h
      simp [hk, h]
    · simp only [getKey, hk, if_false] at h
      exact List.mem_cons_of_mem _ (ih h)

theorem getKey_iff (hl : (l.map Prod.fst).Nodup) : getKey k l = some a ↔ (k, a) ∈ l := by
  refine ⟨getKey_mem, fun h => ?_⟩
  induction l with
  | nil => cases h
  | cons e l ih =>
    obtain ⟨k', a'⟩ := e
    obtain ⟨h1, h2⟩ := List.nodup_cons.mp hl
    rcases List.mem_cons.mp h with h | h
    · cases h
      simp [getKey]
    · have : k' ≠ k := fun e => h1 (e ▸ List.mem_map.mpr ⟨_, h, rfl⟩)
      simp only [getKey, this, if_false]
      exact ih h2 h

theorem insertKey_new (h : k ∉ l.map Prod.fst) : insertKey k a l = l ++ [(k, a)] := by
  induction l with
  | nil => rfl
  | cons e l ih =>
    obtain ⟨k', a'⟩ := e
    simp only [List.map_cons, List.mem_cons, not_or] at h
    simp [insertKey, Ne.symm h.1, ih h.2]

theorem insertKey_same (h : getKey k l = some a) : insertKey k a l = l := by
  induction l with
  | nil => cases h
  | cons e l ih =>
    obtain ⟨k', a'⟩ := e
    by_cases hk : k' = k
    · simp [getKey, hk] at h
      simp [insertKey, hk, h]
    · simp only [getKey, hk, if_false] at h
      simp [insertKey, hk, ih h]

end

end Verif.CoCircom
