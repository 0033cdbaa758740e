import Verif.Rep3.ArithLemmas
import Verif.Spec.Tape

/-!
# Lemmas about sharing and combining
-/

namespace Verif

open PartyID

namespace Rep3

variable {R α : Type}

theorem shareElement_isShare [Sample R α] [AddCommGroup α] (v : α) (rng : R) :
    IsShare (shareElement v rng).1 v := by
  rw [isShare_iff]
  simp only [shareElement, three]
  simp

theorem combineElement_of_isShare [AddCommGroup α] {s : PartyID → Share α} {v : α}
    (h : IsShare s v) : combineElement (s ID0) (s ID1) (s ID2) = v := h.2

theorem shareLoop_columns {α β : Type} {f : α → R → (PartyID → β) × R} {P : (PartyID → β) → α → Prop}
    (h : ∀ v rng, P (f v rng).1 v) (vs : List α) (rng : R) :
    ∃ l : List (PartyID → β), (shareLoop f vs rng).1 = (fun i => l.map (· i)) ∧ List.Forall₂ P l vs := by
  induction vs generalizing rng with
  | nil => exact ⟨[], rfl, .nil⟩
  | cons v vs ih =>
    obtain ⟨l, h1, h2⟩ := ih (f v rng).2
    refine ⟨(f v rng).1 :: l, ?_, .cons (h v rng) h2⟩
    funext i
    simp [shareLoop, h1]

theorem combineElements_of_isShares [AddCommGroup α] {s : PartyID → List (Share α)} {vs : List α}
    (h : IsShares s vs) : combineElements (s ID0) (s ID1) (s ID2) = some vs := by
  obtain ⟨l, rfl, hl⟩ := h
  simp only [combineElements, List.length_map, and_self, if_true, Option.some.injEq, zip_columns]
  induction hl with
  | nil => rfl
  | cons h _ ih =>
    have := combineElement_of_isShare h
    exact congrArg₂ List.cons this ih

theorem combineBinaryElements_of_isShares {w : Nat} {s : PartyID → List (Share (BitVec w))}
    {vs : List (BitVec w)} (h : IsBShares s vs) :
    combineBinaryElements (s ID0) (s ID1) (s ID2) = some vs := by
  obtain ⟨l, rfl, hl⟩ := h
  simp only [combineBinaryElements, List.length_map, and_self, if_true, Option.some.injEq,
    zip_columns]
  induction hl with
  | nil => rfl
  | @cons s v _ _ h _ ih =>
    have : combineBinaryElement (s ID0) (s ID1) (s ID2) = v := h.2
    exact congrArg₂ List.cons this ih

theorem shareBinary_isShare {w : Nat} [Sample R (BitVec w)] (n : Nat) (v : BitVec w) (rng : R) :
    IsBShare (shareBinary n v rng).1 v := by
  constructor
  · rw [forall_iff]; simp [shareBinary]
  · simp only [shareBinary, three]
    generalize (randomBits (w := w) (randomBits (w := w) rng n).2 n).1 = b
    generalize (randomBits (w := w) rng n).1 = a
    grind

theorem seededLoop_eq [Sample R α] [AddCommGroup α] (vs : List α) (rb rc : R) :
    seededLoop vs rb rc = List.zipWith (fun v (bc : α × α) => v - bc.1 - bc.2) vs
      ((sampleN rb vs.length).1.zip (sampleN rc vs.length).1) := by
  induction vs generalizing rb rc with
  | nil => rfl
  | cons v vs ih => simp [seededLoop, sampleN, ih]

@[simp] theorem seededLoop_length [Sample R α] [AddCommGroup α] (vs : List α) (rb rc : R) :
    (seededLoop vs rb rc).length = vs.length := by
  simp [seededLoop_eq]

theorem isShares_of_three [AddCommGroup α] {a b c : List α} {vs : List α}
    (ha : a.length = vs.length) (hb : b.length = vs.length) (hc : c.length = vs.length)
    (h : ∀ k (h : k < vs.length), a[k] + b[k] + c[k] = vs[k]) :
    IsShares (three (List.zipWith Share.mk a c) (List.zipWith Share.mk b a)
      (List.zipWith Share.mk c b)) vs := by
  induction vs generalizing a b c with
  | nil =>
    obtain rfl : a = [] := by simpa using ha
    obtain rfl : b = [] := by simpa using hb
    obtain rfl : c = [] := by simpa using hc
    exact ⟨[], by funext i; cases i <;> rfl, .nil⟩
  | cons v vs ih =>
    obtain ⟨x, a, rfl⟩ := List.exists_cons_of_length_eq_add_one ha
    obtain ⟨y, b, rfl⟩ := List.exists_cons_of_length_eq_add_one hb
    obtain ⟨z, c, rfl⟩ := List.exists_cons_of_length_eq_add_one hc
    have h1 := ih (a := a) (b := b) (c := c) (by simpa using ha) (by simpa using hb)
      (by simpa using hc) (fun k hk => h (k + 1) (by simpa using hk))
    have h0 : IsShare (three (Share.mk x z) ⟨y, x⟩ ⟨z, y⟩) v := by
      rw [isShare_iff]; exact ⟨⟨rfl, rfl, rfl⟩, h 0 (by simp)⟩
    convert isShares_cons h0 h1 using 1
    funext i; cases i <;> rfl

/-! ### Change of tape -/

section Shift

variable [AddCommGroup α]

/-- Change the two values drawn for one secret. -/
def shiftPair (i : PartyID) (d a b : α) : α × α :=
  match i with
  | ID0 => (a, b + d)
  | ID1 => (a, b)
  | ID2 => (a + d, b)

/-- Change a dealer tape so that party `i` sees the same shares for other secrets. -/
def shiftTape (i : PartyID) : List α → List α → List α → List α
  | v :: vs, w :: ws, a :: b :: t =>
    (shiftPair i (w - v) a b).1 :: (shiftPair i (w - v) a b).2 :: shiftTape i vs ws t
  | _, _, t => t

theorem shiftTape_length (i : PartyID) (vs ws t : List α) :
    (shiftTape i vs ws t).length = t.length := by
  induction vs, ws, t using shiftTape.induct with
  | case1 v vs w ws a b t ih => simp [shiftTape, ih]
  | case2 vs ws t h =>
    rw [shiftTape.eq_2]
    exact h

theorem shiftTape_inv (i : PartyID) (vs ws t : List α) :
    shiftTape i ws vs (shiftTape i vs ws t) = t := by
  induction vs, ws, t using shiftTape.induct with
  | case1 v vs w ws a b t ih => cases i <;> simp [shiftTape, shiftPair, ih] <;> abel
  | case2 vs ws t h =>
    rw [shiftTape.eq_2 _ vs ws t h, shiftTape.eq_2]
    intro v vs' w ws' a b t' h1 h2 h3
    exact h _ _ _ _ _ _ _ h2 h1 h3

theorem shareElements_shift (i : PartyID) {vs ws t : List α} (h : vs.length = ws.length)
    (ht : t.length = 2 * vs.length) :
    letI : Inhabited α := ⟨0⟩
    letI := tapeSample α
    (shareElements ws (shiftTape i vs ws t)).1 i = (shareElements vs t).1 i := by
  induction vs generalizing ws t with
  | nil =>
    obtain rfl : ws = [] := by simpa using h.symm
    rfl
  | cons v vs ih =>
    obtain ⟨w, ws, rfl⟩ := List.exists_cons_of_length_eq_add_one h.symm
    match t, ht with
    | a :: b :: t, ht =>
      have := ih (ws := ws) (t := t) (by simpa using h) (by simp at ht; omega)
      simp only [shareElements] at this ⊢
      cases i
      · simp [shiftTape, shiftPair, shareLoop, shareElement, this]
        abel
      · simp [shiftTape, shiftPair, shareLoop, shareElement, this]
      · simp [shiftTape, shiftPair, shareLoop, shareElement, this]
        abel

end Shift

section ShiftX

variable {w : Nat}

/-- The same for XOR sharing. -/
def shiftTapeX (i : PartyID) (d : BitVec w) : List (BitVec w) → List (BitVec w)
  | [a, b] =>
    match i with
      | ID0 => [a, b ^^^ d]
      | ID1 => [a, b]
      | ID2 => [a ^^^ d, b]
  | t => t

theorem shiftTapeX_length (i : PartyID) (d : BitVec w) (t) : (shiftTapeX i d t).length = t.length := by
  match t with
  | [] => rfl
  | [_] => rfl
  | [a, b] => cases i <;> rfl
  | _ :: _ :: _ :: _ => rfl

theorem shiftTapeX_inv (i : PartyID) (d : BitVec w) (t) : shiftTapeX i d (shiftTapeX i d t) = t := by
  match t with
  | [] => rfl
  | [_] => rfl
  | [a, b] => cases i <;> simp [shiftTapeX, BitVec.xor_assoc]
  | _ :: _ :: _ :: _ => rfl

theorem shareBinary_shift (i : PartyID) {n : Nat} {v v' : BitVec w} (hv : v &&& mask w n = v)
    (hv' : v' &&& mask w n = v') {t : List (BitVec w)} (ht : t.length = 2) :
    letI := tapeSample (BitVec w)
    (shareBinary n v' (shiftTapeX i (v ^^^ v') t)).1 i = (shareBinary n v t).1 i := by
  match t, ht with
  | [a, b], _ =>
    have e : ∀ x : BitVec w, (x ^^^ (v ^^^ v')) &&& mask w n = (x &&& mask w n) ^^^ (v ^^^ v') := by
      intro x
      conv_rhs => rw [← hv, ← hv']
      grind
    cases i
    · simp [shiftTapeX, shareBinary, randomBits, e]
      grind
    · simp [shiftTapeX, shareBinary, randomBits]
    · simp [shiftTapeX, shareBinary, randomBits, e]
      grind

end ShiftX

end Rep3

end Verif
