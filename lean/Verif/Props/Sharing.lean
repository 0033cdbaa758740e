import Verif.Rep3.ShareLemmas
import Verif.Props.Demo

/-!
# Properties C01 - C04: sharing, combining and single-share privacy
-/

namespace Verif.Props

open PartyID Rep3

variable {R α : Type}

/-! ## C01 -/

/-- C01: sharing one element and combining returns it, for every generator state. -/
theorem C01_element [Sample R α] [AddCommGroup α] (v : α) (rng : R) :
    let s := (shareElement v rng).1
    IsShare s v ∧ combineElement (s ID0) (s ID1) (s ID2) = v :=
  ⟨shareElement_isShare v rng, combineElement_of_isShare (shareElement_isShare v rng)⟩

example : combineElement ((shareElement (5 : Demo.F7) 17).1 ID0) ((shareElement (5 : Demo.F7) 17).1 ID1)
    ((shareElement (5 : Demo.F7) 17).1 ID2) = 5 := (C01_element (R := Nat) (5 : Demo.F7) 17).2

/-- C01: vectors. -/
theorem C01_elements [Sample R α] [AddCommGroup α] (vs : List α) (rng : R) :
    let s := (shareElements vs rng).1
    IsShares s vs ∧ combineElements (s ID0) (s ID1) (s ID2) = some vs := by
  obtain ⟨l, h1, h2⟩ := shareLoop_columns (f := shareElement) shareElement_isShare vs rng
  have : IsShares (shareElements vs rng).1 vs := ⟨l, h1, h2⟩
  exact ⟨this, combineElements_of_isShares this⟩

example : combineElements ((shareElements ([3, 1, 6] : List Demo.F7) 9).1 ID0)
    ((shareElements ([3, 1, 6] : List Demo.F7) 9).1 ID1)
    ((shareElements ([3, 1, 6] : List Demo.F7) 9).1 ID2) = some [3, 1, 6] :=
  (C01_elements (R := Nat) [3, 1, 6] 9).2

/-- C01: combining any replicated sharing, not only a freshly dealt one, returns the secrets. -/
theorem C01_combine [AddCommGroup α] {s : PartyID → List (Share α)} {vs : List α}
    (h : IsShares s vs) : combineElements (s ID0) (s ID1) (s ID2) = some vs :=
  combineElements_of_isShares h

example : combineElements [Demo.three7 ID0, Demo.five7 ID0] [Demo.three7 ID1, Demo.five7 ID1]
    [Demo.three7 ID2, Demo.five7 ID2] = some [3, 5] := C01_combine Demo.isShares_35

/-- C01: vectors with absent entries. Absent entries stay absent at the same position at every
party; present entries are shared. -/
theorem C01_maybe [Sample R α] [AddCommGroup α] (vs : List (Option α)) (rng : R) :
    let s := (shareMaybeElements vs rng).1
    (∀ i, (s i).length = vs.length) ∧
    (∀ k : Nat, vs[k]? = some none → ∀ i, (s i)[k]? = some none) ∧
    (∀ (k : Nat) v, vs[k]? = some (some v) → ∃ sh : PartyID → Share α,
      (∀ i, (s i)[k]? = some (some (sh i))) ∧ IsShare sh v ∧
      combineElement (sh ID0) (sh ID1) (sh ID2) = v) := by
  obtain ⟨l, h1, h2⟩ := shareLoop_columns (f := shareMaybe (R := R) (shareElement (α := α)))
    (P := fun s v => (v = none ∧ s = fun _ => none) ∨
      ∃ w sh, v = some w ∧ (s = fun i => some (sh i)) ∧ IsShare sh w) (by
      intro v rng
      cases v with
      | none => exact Or.inl ⟨rfl, rfl⟩
      | some w => exact Or.inr ⟨w, _, rfl, rfl, shareElement_isShare w rng⟩) vs rng
  have hs : (shareMaybeElements vs rng).1 = fun i => l.map (· i) := h1
  simp only [hs]
  clear h1 hs
  refine ⟨fun i => by simpa using h2.length_eq, ?_, ?_⟩
  · intro k hk i
    induction h2 generalizing k with
    | nil => simp at hk
    | cons h _ ih =>
      cases k with
      | zero =>
        rcases h with ⟨_, rfl⟩ | ⟨w, sh, rfl, _, _⟩
        · rfl
        · simp at hk
      | succ k => simpa using ih k (by simpa using hk)
  · intro k v hk
    induction h2 generalizing k with
    | nil => simp at hk
    | cons h _ ih =>
      cases k with
      | zero =>
        rcases h with ⟨rfl, _⟩ | ⟨w, sh, rfl, rfl, h⟩
        · simp at hk
        · obtain rfl : w = v := by simpa using hk
          exact ⟨sh, fun i => rfl, h, h.2⟩
      | succ k => simpa using ih k (by simpa using hk)

example : ∃ sh : PartyID → Share Demo.F7,
    (∀ i, ((shareMaybeElements (R := Nat) [none, some (4 : Demo.F7)] 3).1 i)[1]? = some (some (sh i))) ∧
      IsShare sh 4 ∧ combineElement (sh ID0) (sh ID1) (sh ID2) = 4 :=
  (C01_maybe [none, some (4 : Demo.F7)] 3).2.2 1 4 rfl

/-! ## C02 -/

/-- C02: additive sharing. -/
theorem C02_additive [Sample R α] [AddCommGroup α] (v : α) (rng : R) :
    IsAdditive (shareElementAdditive v rng).1 v := by
  simp [IsAdditive, shareElementAdditive]

/-- C02: additive sharing of vectors. -/
theorem C02_additive_vec [Sample R α] [AddCommGroup α] (vs : List α) (rng : R) :
    ∃ l : List (PartyID → α), (shareElementsAdditive vs rng).1 = (fun i => l.map (· i)) ∧
      List.Forall₂ IsAdditive l vs :=
  shareLoop_columns (f := shareElementAdditive) C02_additive vs rng

/-- C02: expanding the compressed shares of one element gives a sharing of it. -/
theorem C02_seeded {R' Seed : Type} [Sample R' Seed] [Sample R α] [Seedable R Seed]
    [AddCommGroup α] (v : α) (rng : R') :
    ∃ sh : PartyID → Share α,
      (∀ i, ((shareElementSeeded (Seed := Seed) R v rng).1 i).expand R = some (sh i)) ∧
      IsShare sh v ∧ combineElement (sh ID0) (sh ID1) (sh ID2) = v := by
  let b : α := (Sample.sample (R := R) (Seedable.fromSeed (Sample.sample (α := Seed) rng).1)).1
  let c : α := (Sample.sample (R := R) (Seedable.fromSeed
    (Sample.sample (α := Seed) (Sample.sample (α := Seed) rng).2).1)).1
  refine ⟨three ⟨v - b - c, c⟩ ⟨b, v - b - c⟩ ⟨c, b⟩, ?_, ?_, ?_⟩
  · intro i; cases i <;> rfl
  · rw [isShare_iff]; simp only [three_0, three_1, three_2, true_and]; abel
  · simp only [combineElement, three_0, three_1, three_2]; abel

/-- C02: additive compressed shares of one element. -/
theorem C02_seeded_additive {R' Seed : Type} [Sample R' Seed] [Sample R α] [Seedable R Seed]
    [AddCommGroup α] (v : α) (rng : R') :
    ∃ sh : PartyID → α,
      (∀ i, ((shareElementAdditiveSeeded (Seed := Seed) R v rng).1 i).expand R = some (sh i)) ∧
      IsAdditive sh v := by
  let b : α := (Sample.sample (R := R) (Seedable.fromSeed (Sample.sample (α := Seed) rng).1)).1
  let c : α := (Sample.sample (R := R) (Seedable.fromSeed
    (Sample.sample (α := Seed) (Sample.sample (α := Seed) rng).2).1)).1
  refine ⟨three (v - b - c) b c, ?_, ?_⟩
  · intro i; cases i <;> rfl
  · simp only [IsAdditive, three_0, three_1, three_2]; abel

/-- C02: expanding the compressed shares of a vector gives a sharing of it at every position, with
the right length. -/
theorem C02_seeded_vec {R' Seed : Type} [Sample R' Seed] [Sample R α] [Seedable R Seed]
    [AddCommGroup α] (vs : List α) (rng : R') :
    ∃ sh : PartyID → List (Share α),
      (∀ i, ((shareElementsSeeded (Seed := Seed) R vs rng).1 i).expandVec R = .ok (sh i)) ∧
      (∀ i, ((shareElementsSeeded (Seed := Seed) R vs rng).1 i).length = .ok vs.length) ∧
      IsShares sh vs ∧ combineElements (sh ID0) (sh ID1) (sh ID2) = some vs := by
  let sb := (Sample.sample (α := Seed) rng).1
  let sc := (Sample.sample (α := Seed) (Sample.sample (α := Seed) rng).2).1
  let a := seededLoop (R := R) vs (Seedable.fromSeed sb) (Seedable.fromSeed sc)
  let b := (sampleN (R := R) (α := α) (Seedable.fromSeed sb) vs.length).1
  let c := (sampleN (R := R) (α := α) (Seedable.fromSeed sc) vs.length).1
  have ha : a.length = vs.length := seededLoop_length _ _ _
  have hb : b.length = vs.length := sampleN_length _ _
  have hc : c.length = vs.length := sampleN_length _ _
  have hsh : IsShares (three (List.zipWith Share.mk a c) (List.zipWith Share.mk b a)
      (List.zipWith Share.mk c b)) vs := by
    refine isShares_of_three ha hb hc fun k hk => ?_
    have : a = List.zipWith (fun v (bc : α × α) => v - bc.1 - bc.2) vs (b.zip c) :=
      seededLoop_eq _ _ _
    simp only [this, List.getElem_zipWith, List.getElem_zip]; abel
  refine ⟨_, ?_, ?_, hsh, combineElements_of_isShares hsh⟩
  · intro i
    cases i
    · show (if a.length ≠ c.length then _ else _) = _
      rw [if_neg (by simp [ha, hc])]; rfl
    · show (if b.length ≠ a.length then _ else _) = _
      rw [if_neg (by simp [ha, hb])]; rfl
    · show (if c.length ≠ b.length then _ else _) = _
      rw [if_neg (by simp [hb, hc])]; rfl
  · intro i
    cases i
    · show (if a.length ≠ vs.length then _ else _) = _
      rw [if_neg (by simp [ha])]; exact congrArg Except.ok ha
    · show (if vs.length ≠ a.length then _ else _) = _
      rw [if_neg (by simp [ha])]; rfl
    · show (if vs.length ≠ vs.length then _ else _) = _
      rw [if_neg (by simp)]; rfl

/-- C02: additive compressed shares of a vector. -/
theorem C02_seeded_additive_vec {R' Seed : Type} [Sample R' Seed] [Sample R α] [Seedable R Seed]
    [AddCommGroup α] (vs : List α) (rng : R') :
    let e := fun i => ((shareElementsAdditiveSeeded (Seed := Seed) R vs rng).1 i).expandVec R
    (∀ i, (e i).length = vs.length) ∧
    ∀ (k : Nat) v, vs[k]? = some v → ∃ x : PartyID → α, (∀ i, (e i)[k]? = some (x i)) ∧ IsAdditive x v := by
  let sb := (Sample.sample (α := Seed) rng).1
  let sc := (Sample.sample (α := Seed) (Sample.sample (α := Seed) rng).2).1
  let a := seededLoop (R := R) vs (Seedable.fromSeed sb) (Seedable.fromSeed sc)
  let b := (sampleN (R := R) (α := α) (Seedable.fromSeed sb) vs.length).1
  let c := (sampleN (R := R) (α := α) (Seedable.fromSeed sc) vs.length).1
  have ha : a.length = vs.length := seededLoop_length _ _ _
  have hb : b.length = vs.length := sampleN_length _ _
  have hc : c.length = vs.length := sampleN_length _ _
  have he : (fun i => ((shareElementsAdditiveSeeded (Seed := Seed) R vs rng).1 i).expandVec R) =
      three a b c := by funext i; cases i <;> rfl
  simp only [he]
  refine ⟨fun i => by cases i <;> assumption, fun k v hk => ?_⟩
  obtain ⟨hk, rfl⟩ := List.getElem?_eq_some_iff.mp hk
  refine ⟨three a[k] b[k] c[k], fun i => (congrArg (·[k]?) (congrFun he i)).trans
    (by cases i <;> simp [ha, hb, hc, ‹k < vs.length›]), ?_⟩
  have : a = List.zipWith (fun v (bc : α × α) => v - bc.1 - bc.2) vs (b.zip c) :=
      seededLoop_eq _ _ _
  simp only [IsAdditive, three_0, three_1, three_2, this, List.getElem_zipWith, List.getElem_zip]
  abel

example : ∃ sh : PartyID → List (Share Demo.F7),
    (∀ i, ((shareElementsSeeded (Seed := Nat) Nat [5, 2, (6 : Demo.F7)] (42 : Nat)).1 i).expandVec Nat =
      .ok (sh i)) ∧ combineElements (sh ID0) (sh ID1) (sh ID2) = some [5, 2, 6] := by
  obtain ⟨sh, h1, -, -, h2⟩ := C02_seeded_vec (R := Nat) (R' := Nat) (Seed := Nat)
    [5, 2, (6 : Demo.F7)] 42
  exact ⟨sh, h1, h2⟩

/-- C02: halves of different length are rejected, whatever they are (explicit or seeds). -/
theorem C02_reject {Seed : Type} [Sample R α] [Seedable R Seed] (s : ReplicatedSeed (List α) Seed) :
    (∃ e, s.expandVec R = .error (.err e)) ↔
      (s.a.expandVec R).length ≠ (s.b.expandVec R).length := by
  simp only [ReplicatedSeed.expandVec]
  split <;> simp_all

/-- C02: the advertised length is the length after expansion, and the check on it agrees. -/
theorem C02_length {Seed : Type} [Sample R α] [Seedable R Seed] (s : ReplicatedSeed (List α) Seed)
    (l : List (Share α)) (h : s.expandVec R = .ok l) : s.length = .ok l.length := by
  have ea : s.a.length = (s.a.expandVec R).length := by
    cases s.a <;> simp [Seeded.length, Seeded.expandVec]
  have eb : s.b.length = (s.b.expandVec R).length := by
    cases s.b <;> simp [Seeded.length, Seeded.expandVec]
  simp only [ReplicatedSeed.expandVec] at h
  split at h
  · simp at h
  · rename_i h'
    simp only [ReplicatedSeed.length, ea, eb]
    cases h
    simp_all

example : ∃ e, (⟨.shares [1, 2], .seed 5 3⟩ : ReplicatedSeed (List Demo.F7) Nat).expandVec Nat =
    .error (.err e) := (C02_reject _).mpr (by decide)

/-! ## C03 -/

/-- C03: XOR sharing; `n` is the number of random bits in the shares. -/
theorem C03_binary {w : Nat} [Sample R (BitVec w)] (n : Nat) (v : BitVec w) (rng : R) :
    let s := (shareBinary n v rng).1
    IsBShare s v ∧ combineBinaryElement (s ID0) (s ID1) (s ID2) = v :=
  ⟨shareBinary_isShare n v rng, (shareBinary_isShare n v rng).2⟩

/-- C03: the shares of a value of at most `n` bits have at most `n` bits. -/
theorem C03_binary_width {w : Nat} [Sample R (BitVec w)] (n : Nat) (v : BitVec w) (rng : R)
    (hv : v.toNat < 2 ^ n) (i : PartyID) :
    ((shareBinary n v rng).1 i).a.toNat < 2 ^ n ∧ ((shareBinary n v rng).1 i).b.toNat < 2 ^ n := by
  have hm : ∀ rng : R, (randomBits (w := w) rng n).1.toNat < 2 ^ n := by
    intro rng
    simp only [randomBits, BitVec.toNat_and, mask, BitVec.toNat_ofNat]
    have h1 : 0 < 2 ^ n := Nat.two_pow_pos n
    have : (2 ^ n - 1) % 2 ^ w ≤ 2 ^ n - 1 := Nat.mod_le _ _
    have h2 := Nat.and_le_right (n := (Sample.sample (R := R) (α := BitVec w) rng).1.toNat)
      (m := (2 ^ n - 1) % 2 ^ w)
    omega
  cases i <;> simp [shareBinary, hm, Nat.xor_lt_two_pow, hv]

/-- C03: combining vectors of XOR shares. -/
theorem C03_combine_binary {w : Nat} {s : PartyID → List (Share (BitVec w))} {vs : List (BitVec w)}
    (h : IsBShares s vs) : combineBinaryElements (s ID0) (s ID1) (s ID2) = some vs :=
  combineBinaryElements_of_isShares h

/-- C03: curve points, as elements of any abelian group. -/
theorem C03_point {G : Type} [Sample R G] [AddCommGroup G] (v : G) (rng : R) :
    let s := (shareElement v rng).1
    IsShare s v ∧ combineElement (s ID0) (s ID1) (s ID2) = v := C01_element v rng

/-- C03: vectors of curve points. -/
theorem C03_points {G : Type} [Sample R G] [AddCommGroup G] (vs : List G) (rng : R) :
    let s := (shareElements vs rng).1
    IsShares s vs ∧ combineElements (s ID0) (s ID1) (s ID2) = some vs := C01_elements vs rng

example : combineBinaryElement ((shareBinary 3 (5 : BitVec 8) 77).1 ID0)
    ((shareBinary 3 (5 : BitVec 8) 77).1 ID1) ((shareBinary 3 (5 : BitVec 8) 77).1 ID2) = 5 :=
  (C03_binary (R := Nat) 3 5 77).2
example (i : PartyID) : ((shareBinary 3 (5 : BitVec 8) 77).1 i).a.toNat < 2 ^ 3 :=
  (C03_binary_width (R := Nat) 3 5 77 (by decide) i).1

/-! ## C04

`tapeSample` (in `Verif/Spec/Tape.lean`) makes the dealer's randomness an ideal tape. -/

/-- C04: for a vector of secrets, the vector of shares that party `i` receives is produced by
exactly as many dealer tapes for the secrets `vs` as for any other secrets `ws`. -/
theorem C04_share_privacy [AddCommGroup α] (vs ws : List α) (h : vs.length = ws.length)
    (i : PartyID) (s : List (Share α)) :
    letI : Inhabited α := ⟨0⟩
    letI := tapeSample α
    countTapes (2 * vs.length) (fun t : List α => (shareElements vs t).1 i = s) =
      countTapes (2 * vs.length) (fun t : List α => (shareElements ws t).1 i = s) := by
  refine Nat.card_congr ⟨fun t => ⟨shiftTape i vs ws t.1, ?_⟩, fun t => ⟨shiftTape i ws vs t.1, ?_⟩,
    fun t => ?_, fun t => ?_⟩
  · obtain ⟨t, h1, h2⟩ := t
    exact ⟨by rw [shiftTape_length, h1], (shareElements_shift i h h1).trans h2⟩
  · obtain ⟨t, h1, h2⟩ := t
    exact ⟨by rw [shiftTape_length, h1],
      (shareElements_shift i h.symm (by rw [h1, h])).trans h2⟩
  · exact Subtype.ext (shiftTape_inv i _ _ _)
  · exact Subtype.ext (shiftTape_inv i _ _ _)

/-- C04: the case of one secret. -/
theorem C04_share_privacy_single [AddCommGroup α] (v w : α) (i : PartyID) (s : Share α) :
    letI : Inhabited α := ⟨0⟩
    letI := tapeSample α
    countTapes 2 (fun t : List α => (shareElement v t).1 i = s) =
      countTapes 2 (fun t : List α => (shareElement w t).1 i = s) := by
  have := C04_share_privacy [v] [w] rfl i [s]
  simpa [shareElements, shareLoop] using this

/-- C04 is not about empty sets: there is a tape for every share a party can receive. -/
theorem C04_share_possible [AddCommGroup α] (v : α) (i : PartyID) (s : Share α) :
    letI : Inhabited α := ⟨0⟩
    letI := tapeSample α
    ∃ t : List α, t.length = 2 ∧ (shareElement v t).1 i = s := by
  obtain ⟨x, y⟩ := s
  cases i
  · exact ⟨[x, v - x - y], rfl, by simp [shareElement]⟩
  · exact ⟨[y, x], rfl, by simp [shareElement]⟩
  · exact ⟨[v - x - y, y], rfl, by simp [shareElement]; abel⟩

/-- C04 for XOR sharing of values of at most `n` bits. -/
theorem C04_binary_privacy {w : Nat} (n : Nat) (v v' : BitVec w)
    (hv : v &&& mask w n = v) (hv' : v' &&& mask w n = v') (i : PartyID) (s : Share (BitVec w)) :
    letI := tapeSample (BitVec w)
    countTapes 2 (fun t : List (BitVec w) => (shareBinary n v t).1 i = s) =
      countTapes 2 (fun t : List (BitVec w) => (shareBinary n v' t).1 i = s) := by
  refine Nat.card_congr ⟨fun t => ⟨shiftTapeX i (v ^^^ v') t.1, ?_⟩,
    fun t => ⟨shiftTapeX i (v ^^^ v') t.1, ?_⟩, fun t => ?_, fun t => ?_⟩
  · obtain ⟨t, h1, h2⟩ := t
    exact ⟨by rw [shiftTapeX_length, h1], (shareBinary_shift i hv hv' h1).trans h2⟩
  · obtain ⟨t, h1, h2⟩ := t
    refine ⟨by rw [shiftTapeX_length, h1], ?_⟩
    rw [BitVec.xor_comm]
    exact (shareBinary_shift i hv' hv h1).trans h2
  · exact Subtype.ext (shiftTapeX_inv i _ _)
  · exact Subtype.ext (shiftTapeX_inv i _ _)

example (s : Share (BitVec 8)) :
    letI := tapeSample (BitVec 8)
    countTapes 2 (fun t : List (BitVec 8) => (shareBinary 3 5 t).1 ID0 = s) =
      countTapes 2 (fun t : List (BitVec 8) => (shareBinary 3 2 t).1 ID0 = s) :=
  C04_binary_privacy 3 5 2 (by decide) (by decide) ID0 s

end Verif.Props
