import Verif.Rep3.InjectLemmas
import Verif.Props.Demo

/-!
# Properties C24 - C28, C31: conversions and comparisons

`ZMod p` is the field, `modBits p` the bit size of the modulus, and `w` the width of the unsigned integer
type, which the code requires to be at least `modBits p + 2` (`hw`).  The canonical representative of
`x : ZMod p` is `x.val`.  `Ensures` and `Corr` are explained in `Props/Arith.lean`.  Operations that choose the
conversion by the state's setting are proved for both settings; with garbled circuits (`.yao`) the modulus must be
odd (`ho`), and where wires are opened the hash of the code must separate the two labels of a wire (`hH`).
-/

namespace Verif.Props

open PartyID Rep3 Demo

variable {R M : Type} {w p : Nat} {t : A2BType} {st : PartyID → Rep3State R}
  [Sample R (BitVec w)] [UintCodec M w] [Sample R (ZMod p)] [Codec M (List (ZMod p))] [NeZero p]
  [Yao.YaoRng R] [Yao.YaoNet M]

/-- `0` or `1` in the field. -/
def ofBool (b : Bool) : ZMod p := if b then 1 else 0

/-! ## C24 -/

omit [Yao.YaoRng R] [Yao.YaoNet M] in
/-- C24: `a2b` yields XOR shares of the canonical representative. -/
theorem C24_a2b {a : PartyID → Share (ZMod p)} {x : ZMod p} (hw : modBits p + 2 ≤ w) (ha : IsShare a x)
    (hst : Corr t st) :
    Ensures (M := M) (fun i => a2b (w := w) (a i)) st (fun r st' =>
      (∃ v, IsBShare r v ∧ v.toNat = x.val) ∧ Corr t st') :=
  ((spec_a2b hw ha hst).mono fun r st' h => ⟨⟨_, h.1, ofField_toNat (by omega) x⟩, h.2⟩).ensures

example : Ensures (M := Msg) (fun i => a2b (w := 8) (three7 i)) states (fun r st' =>
    (∃ v, IsBShare r v ∧ v.toNat = 3) ∧ Corr .direct st') :=
  C24_a2b (by decide) isShare_three7 corr_states

omit [Yao.YaoRng R] [Yao.YaoNet M] in
/-- C24: the vector form. -/
theorem C24_a2b_many {a : PartyID → List (Share (ZMod p))} {x : List (ZMod p)} (hw : modBits p + 2 ≤ w)
    (ha : IsShares a x) (hst : Corr t st) :
    Ensures (M := M) (fun i => a2bMany (w := w) (a i)) st (fun r st' =>
      (∃ v, IsBShares r v ∧ v.map BitVec.toNat = x.map ZMod.val) ∧ Corr t st') :=
  ((spec_a2bMany hw ha hst).mono fun r st' h => ⟨⟨_, h.1, by
    simp only [List.map_map]
    exact List.map_congr_left fun x _ => ofField_toNat (by omega) x⟩, h.2⟩).ensures

example : Ensures (M := Msg) (fun i => a2bMany (w := 8) [three7 i, five7 i]) states (fun r st' =>
    (∃ v, IsBShares r v ∧ v.map BitVec.toNat = [3, 5]) ∧ Corr .direct st') :=
  C24_a2b_many (by decide) isShares_35 corr_states

/-- C24: the selector. -/
theorem C24_a2b_selector {a : PartyID → Share (ZMod p)} {x : ZMod p} (hw : modBits p + 2 ≤ w) (ho : t = .yao → p % 2 = 1)
    (ha : IsShare a x) (hst : Corr t st) :
    Ensures (M := M) (fun i => a2bSelector (w := w) (a i)) st (fun r st' =>
      (∃ v, IsBShare r v ∧ v.toNat = x.val) ∧ Corr t st') :=
  ((spec_a2bSelector hw ho ha hst).mono fun r st' h => ⟨⟨_, h.1, ofField_toNat (by omega) x⟩, h.2⟩).ensures

example (t : A2BType) : Ensures (M := Msg) (fun i => a2bSelector (w := 8) (three7 i)) (statesOf t) (fun r st' =>
    (∃ v, IsBShare r v ∧ v.toNat = 3) ∧ Corr t st') :=
  C24_a2b_selector (by decide) (fun _ => rfl) isShare_three7 (corr_statesOf t)

/-! ## C25 -/

omit [Yao.YaoRng R] [Yao.YaoNet M] in
/-- C25: `b2a` of an integer below the modulus. -/
theorem C25_b2a {a : PartyID → Share (BitVec w)} {x : BitVec w} (hw : modBits p + 2 ≤ w)
    (ha : IsBShare a x) (hx : x.toNat < p) (hst : Corr t st) :
    Ensures (M := M) (fun i => b2a (p := p) (a i)) st (fun r st' =>
      IsShare r (x.toNat : ZMod p) ∧ Corr t st') :=
  (spec_b2a hw ha hx hst).ensures

example : Ensures (M := Msg) (fun i => b2a (p := 7) (six8 i)) states (fun r st' =>
    IsShare r (6 : F7) ∧ Corr .direct st') :=
  C25_b2a (by decide) isBShare_six8 (by decide) corr_states

omit [Yao.YaoRng R] [Yao.YaoNet M] in
/-- C25: the vector form. -/
theorem C25_b2a_many {a : PartyID → List (Share (BitVec w))} {x : List (BitVec w)}
    (hw : modBits p + 2 ≤ w) (ha : IsBShares a x) (hx : ∀ v ∈ x, v.toNat < p) (hst : Corr t st) :
    Ensures (M := M) (fun i => b2aMany (p := p) (a i)) st (fun r st' =>
      IsShares r (x.map fun v => (v.toNat : ZMod p)) ∧ Corr t st') :=
  (spec_b2aMany hw ha hx hst).ensures

example : Ensures (M := Msg) (fun i => b2aMany (p := 7) [six8 i, three8 i]) states (fun r st' =>
    IsShares r [(6 : F7), 3] ∧ Corr .direct st') :=
  C25_b2a_many (by decide) isBShares_63 (by decide) corr_states

/-- C25: the selector. -/
theorem C25_b2a_selector {a : PartyID → Share (BitVec w)} {x : BitVec w} (hw : modBits p + 2 ≤ w) (ho : t = .yao → p % 2 = 1)
    (hH : t = .yao → Yao.HashSeparates (Yao.YaoNet.hash M))
    (ha : IsBShare a x) (hx : x.toNat < p) (hst : Corr t st) :
    Ensures (M := M) (fun i => b2aSelector (p := p) (a i)) st (fun r st' =>
      IsShare r (x.toNat : ZMod p) ∧ Corr t st') :=
  (spec_b2aSelector hw ho hH ha hx hst).ensures

example (t : A2BType) : Ensures (M := Msg) (fun i => b2aSelector (p := 7) (six8 i)) (statesOf t) (fun r st' =>
    IsShare r (6 : F7) ∧ Corr t st') :=
  C25_b2a_selector (by decide) (fun _ => rfl) (fun _ => demo_hash) isBShare_six8 (by decide) (corr_statesOf t)

omit [Yao.YaoRng R] [Yao.YaoNet M] in
/-- C25: converting to binary and back is the identity on values. -/
theorem C25_roundtrip {a : PartyID → Share (ZMod p)} {x : ZMod p} (hw : modBits p + 2 ≤ w)
    (ha : IsShare a x) (hst : Corr t st) :
    Ensures (M := M) (fun i => a2b (w := w) (a i) >>= fun b => b2a (p := p) b) st (fun r st' =>
      IsShare r x ∧ Corr t st') := by
  refine (Spec.bind (spec_a2b hw ha hst) ?_).ensures
  rintro b st' ⟨hb, hst'⟩
  have h := spec_b2a (M := M) (p := p) hw hb (by rw [ofField_toNat (by omega)]; exact ZMod.val_lt x) hst'
  rw [ofField_toNat (by omega), ZMod.natCast_zmod_val] at h
  exact h

example : Ensures (M := Msg) (fun i => a2b (w := 8) (three7 i) >>= fun b => b2a (p := 7) b) states
    (fun r st' => IsShare r 3 ∧ Corr .direct st') :=
  C25_roundtrip (by decide) isShare_three7 corr_states

/-! ## C26 -/

omit [Sample R (BitVec w)] [UintCodec M w] [NeZero p] in
omit [Yao.YaoRng R] [Yao.YaoNet M] in
/-- C26 -/
theorem C26_bit_inject {a : PartyID → Share (BitVec w)} {b : Bool} (hw : 0 < w) (ha : IsBitShare a b)
    (hst : Corr t st) :
    Ensures (M := M) (fun i => bitInject (p := p) (a i)) st (fun r st' =>
      IsShare r (ofBool b) ∧ Corr t st') :=
  (spec_bitInject hw ha hst).ensures

example : Ensures (M := Msg) (fun i => bitInject (p := 7) (true8 i)) states (fun r st' =>
    IsShare r 1 ∧ Corr .direct st') :=
  C26_bit_inject (by decide) isBitShare_true8 corr_states

omit [Sample R (BitVec w)] [UintCodec M w] [NeZero p] in
omit [Yao.YaoRng R] [Yao.YaoNet M] in
/-- C26: the vector form. -/
theorem C26_bit_inject_many {a : PartyID → List (Share (BitVec w))} {b : List Bool} (hw : 0 < w)
    (ha : IsBitShares a b) (hst : Corr t st) :
    Ensures (M := M) (fun i => bitInjectMany (p := p) (a i)) st (fun r st' =>
      IsShares r (b.map ofBool) ∧ Corr t st') :=
  (spec_bitInjectMany hw ha hst).ensures

example : Ensures (M := Msg) (fun i => bitInjectMany (p := 7) [true8 i, true8 i]) states (fun r st' =>
    IsShares r [1, 1] ∧ Corr .direct st') :=
  C26_bit_inject_many (b := [true, true]) (by decide)
    ⟨[true8, true8], rfl, .cons isBitShare_true8 (.cons isBitShare_true8 .nil)⟩ corr_states

omit [Sample R (BitVec w)] [UintCodec M w] [NeZero p] in
omit [Yao.YaoRng R] [Yao.YaoNet M] in
/-- C26: from the bits themselves. -/
theorem C26_bit_inject_from_bits (b : PartyID → Bool) (hst : Corr t st) :
    Ensures (M := M) (fun i => bitInjectFromBits (p := p) (b i, b i.prev)) st (fun r st' =>
      IsShare r (ofBool (b ID0 ^^ b ID1 ^^ b ID2)) ∧ Corr t st') :=
  (spec_bitInjectFromBits b hst).ensures

omit [Sample R (BitVec w)] [UintCodec M w] [NeZero p] in
omit [Yao.YaoRng R] [Yao.YaoNet M] in
/-- C26: components that are not single bits are rejected by an assertion. -/
theorem C26_bit_inject_reject {x : Share (BitVec w)} (h : 2 ≤ x.a.toNat ∨ 2 ≤ x.b.toNat) (i : PartyID)
    (s : Rep3State R) : ∃ e, (bitInject (p := p) x : Rep3M R M _) i s = .fail (.panic e) := by
  have e : ∀ u : BitVec w, ¬ Uint.isBit u ↔ 2 ≤ u.toNat := fun u => by simp [Uint.isBit]; omega
  simp only [bitInject]
  by_cases h1 : 2 ≤ x.a.toNat
  · rw [if_pos ((e _).2 h1)]; exact ⟨_, rfl⟩
  · rw [if_neg (fun h => h1 ((e _).1 h)), if_pos ((e _).2 (h.resolve_left h1))]; exact ⟨_, rfl⟩

/-! ## C27 -/

omit [Sample R (BitVec w)] [UintCodec M w] [NeZero p] in
omit [Yao.YaoRng R] [Yao.YaoNet M] in
/-- Injecting the bit of a comparison. -/
theorem spec_inject_of {q : PartyID → Rep3M R M (Share (BitVec w))} {b : Bool} (hw : 0 < w)
    (h : Spec q st (fun r st' => IsBitShare r b ∧ Corr t st')) :
    Spec (fun i => q i >>= fun r => bitInject (p := p) r) st (fun r st' => IsShare r (ofBool b) ∧ Corr t st') := by
  refine Spec.bind h ?_
  rintro r st' ⟨hr, hst'⟩
  exact spec_bitInject hw hr hst'

omit [Sample R (BitVec w)] [UintCodec M w] [Sample R (ZMod p)] [Codec M (List (ZMod p))] [NeZero p] in
omit [Yao.YaoRng R] [Yao.YaoNet M] in
/-- Negating a comparison. -/
theorem spec_not_of {q : PartyID → Rep3M R M (Share (ZMod p))} {b c : Bool} (hc : c = !b)
    (h : Spec q st (fun r st' => IsShare r (ofBool b) ∧ Corr t st')) :
    Spec (fun i => q i >>= fun r => oneMinus r) st (fun r st' => IsShare r (ofBool c) ∧ Corr t st') := by
  subst hc
  refine Spec.bind h ?_
  rintro r st' ⟨hr, hst'⟩
  exact spec_oneMinus hr hst'

section Compare

variable {a b : PartyID → Share (ZMod p)} {x y : ZMod p}

omit [Sample R (ZMod p)] [Codec M (List (ZMod p))] in
/-- C27: the bits behind the comparisons. -/
theorem C27_bits (hw : modBits p + 2 ≤ w) (ho : t = .yao → p % 2 = 1) (ha : IsShare a x) (hb : IsShare b y) (c : ZMod p)
    (hst : Corr t st) :
    Ensures (M := M) (fun i => geBit w (a i) (b i)) st
      (fun r st' => IsBitShare r (decide (y.val ≤ x.val)) ∧ Corr t st') ∧
    Ensures (M := M) (fun i => gePublicBit w (a i) c) st
      (fun r st' => IsBitShare r (decide (c.val ≤ x.val)) ∧ Corr t st') ∧
    Ensures (M := M) (fun i => lePublicBit w (a i) c) st
      (fun r st' => IsBitShare r (decide (x.val ≤ c.val)) ∧ Corr t st') :=
  ⟨(spec_unsignedGe hw ho ha hb hst).ensures, (spec_unsignedGeConstRhs c hw ho ha hst).ensures,
    (spec_unsignedGeConstLhs c hw ho ha hst).ensures⟩

theorem not_le_decide (m n : Nat) : decide (m < n) = !decide (n ≤ m) := by
  by_cases h : m < n <;> simp [h]; omega

/-- C27: comparisons of two shared values. -/
theorem C27_compare (hw : modBits p + 2 ≤ w) (ho : t = .yao → p % 2 = 1) (ha : IsShare a x) (hb : IsShare b y)
    (hst : Corr t st) :
    Ensures (M := M) (fun i => lt w (a i) (b i)) st
      (fun r st' => IsShare r (ofBool (x.val < y.val)) ∧ Corr t st') ∧
    Ensures (M := M) (fun i => le w (a i) (b i)) st
      (fun r st' => IsShare r (ofBool (x.val ≤ y.val)) ∧ Corr t st') ∧
    Ensures (M := M) (fun i => gt w (a i) (b i)) st
      (fun r st' => IsShare r (ofBool (x.val > y.val)) ∧ Corr t st') ∧
    Ensures (M := M) (fun i => ge w (a i) (b i)) st
      (fun r st' => IsShare r (ofBool (x.val ≥ y.val)) ∧ Corr t st') := by
  have hw0 : 0 < w := by omega
  have h1 := spec_inject_of (M := M) (p := p) hw0 (spec_unsignedGe (M := M) hw ho ha hb hst)
  have h2 := spec_inject_of (M := M) (p := p) hw0 (spec_unsignedGe (M := M) hw ho hb ha hst)
  exact ⟨(spec_not_of (not_le_decide _ _) h1).ensures, h2.ensures,
    (spec_not_of (not_le_decide _ _) h2).ensures, h1.ensures⟩

example (t : A2BType) : Ensures (M := Msg) (fun i => lt 8 (three7 i) (five7 i)) (statesOf t)
    (fun r st' => IsShare r 1 ∧ Corr t st') :=
  (C27_compare (by decide) (fun _ => rfl) isShare_three7 isShare_five7 (corr_statesOf t)).1

example : Ensures (M := Msg) (fun i => gt 8 (three7 i) (three7 i)) states
    (fun r st' => IsShare r 0 ∧ Corr .direct st') :=
  (C27_compare (by decide) (by decide) isShare_three7 isShare_three7 corr_states).2.2.1

/-- C27: comparisons of a shared value with a public one, zero included. -/
theorem C27_compare_public (hw : modBits p + 2 ≤ w) (ho : t = .yao → p % 2 = 1) (ha : IsShare a x) (c : ZMod p)
    (hst : Corr t st) :
    Ensures (M := M) (fun i => ltPublic w (a i) c) st
      (fun r st' => IsShare r (ofBool (x.val < c.val)) ∧ Corr t st') ∧
    Ensures (M := M) (fun i => lePublic w (a i) c) st
      (fun r st' => IsShare r (ofBool (x.val ≤ c.val)) ∧ Corr t st') ∧
    Ensures (M := M) (fun i => gtPublic w (a i) c) st
      (fun r st' => IsShare r (ofBool (x.val > c.val)) ∧ Corr t st') ∧
    Ensures (M := M) (fun i => gePublic w (a i) c) st
      (fun r st' => IsShare r (ofBool (x.val ≥ c.val)) ∧ Corr t st') := by
  have hw0 : 0 < w := by omega
  have h1 := spec_inject_of (M := M) (p := p) hw0 (spec_unsignedGeConstRhs (M := M) c hw ho ha hst)
  have h2 := spec_inject_of (M := M) (p := p) hw0 (spec_unsignedGeConstLhs (M := M) c hw ho ha hst)
  exact ⟨(spec_not_of (not_le_decide _ _) h1).ensures, h2.ensures,
    (spec_not_of (not_le_decide _ _) h2).ensures, h1.ensures⟩

example (t : A2BType) : Ensures (M := Msg) (fun i => ltPublic 8 (three7 i) 0) (statesOf t)
    (fun r st' => IsShare r 0 ∧ Corr t st') :=
  (C27_compare_public (by decide) (fun _ => rfl) isShare_three7 0 (corr_statesOf t)).1

/-! ## C28 -/

omit [Sample R (ZMod p)] [Codec M (List (ZMod p))] in
/-- C28: the bits behind the equality tests. -/
theorem C28_eq_bit (hw : modBits p + 2 ≤ w) (ho : t = .yao → p % 2 = 1) (ha : IsShare a x) (hb : IsShare b y) (c : ZMod p)
    (hst : Corr t st) :
    Ensures (M := M) (fun i => eqBit w (a i) (b i)) st
      (fun r st' => IsBitShare r (decide (x = y)) ∧ Corr t st') ∧
    Ensures (M := M) (fun i => eqBitPublic w (a i) c) st
      (fun r st' => IsBitShare r (decide (x = c)) ∧ Corr t st') := by
  refine ⟨(spec_eqBit hw ho ha hb hst).ensures, (Spec.bind (spec_stateId hst) ?_).ensures⟩
  rintro _ _ ⟨rfl, rfl⟩
  exact spec_eqBit hw ho ha (.promote c) hst

theorem spec_eqPublic (hw : modBits p + 2 ≤ w) (ho : t = .yao → p % 2 = 1) (ha : IsShare a x) (c : ZMod p) (hst : Corr t st) :
    Spec (M := M) (fun i => eqBitPublic w (a i) c) st
      (fun r st' => IsBitShare r (decide (x = c)) ∧ Corr t st') := by
  refine Spec.bind (spec_stateId hst) ?_
  rintro _ _ ⟨rfl, rfl⟩
  exact spec_eqBit hw ho ha (.promote c) hst

/-- C28: equality and inequality of shared values, and with a public value. -/
theorem C28_eq (hw : modBits p + 2 ≤ w) (ho : t = .yao → p % 2 = 1) (ha : IsShare a x) (hb : IsShare b y) (c : ZMod p)
    (hst : Corr t st) :
    Ensures (M := M) (fun i => eq w (a i) (b i)) st
      (fun r st' => IsShare r (ofBool (x = y)) ∧ Corr t st') ∧
    Ensures (M := M) (fun i => neq w (a i) (b i)) st
      (fun r st' => IsShare r (ofBool (x ≠ y)) ∧ Corr t st') ∧
    Ensures (M := M) (fun i => eqPublic w (a i) c) st
      (fun r st' => IsShare r (ofBool (x = c)) ∧ Corr t st') ∧
    Ensures (M := M) (fun i => neqPublic w (a i) c) st
      (fun r st' => IsShare r (ofBool (x ≠ c)) ∧ Corr t st') := by
  have hw0 : 0 < w := by omega
  have h1 := spec_inject_of (M := M) (p := p) hw0 (spec_eqBit (M := M) hw ho ha hb hst)
  have h2 := spec_inject_of (M := M) (p := p) hw0 (spec_eqPublic (M := M) hw ho ha c hst)
  refine ⟨h1.ensures, (spec_not_of (by simp) h1).ensures, h2.ensures,
    (Spec.bind (spec_stateId hst) ?_).ensures⟩
  rintro _ _ ⟨rfl, rfl⟩
  exact spec_not_of (by simp)
    (spec_inject_of (M := M) (p := p) hw0 (spec_eqBit (M := M) hw ho ha (.promote c) hst))

example (t : A2BType) : Ensures (M := Msg) (fun i => eq 8 (three7 i) (five7 i)) (statesOf t)
    (fun r st' => IsShare r 0 ∧ Corr t st') :=
  (C28_eq (by decide) (fun _ => rfl) isShare_three7 isShare_five7 0 (corr_statesOf t)).1

omit [Yao.YaoRng R] [Yao.YaoNet M] in
/-- C28: the vector forms. -/
theorem C28_eq_many {a b : PartyID → List (Share (ZMod p))} {x y : List (ZMod p)}
    (hw : modBits p + 2 ≤ w) (ha : IsShares a x) (hb : IsShares b y) (hl : x.length = y.length)
    (hst : Corr t st) :
    Ensures (M := M) (fun i => eqBitMany w (a i) (b i)) st (fun r st' =>
      IsBitShares r (List.zipWith (fun x y => decide (x = y)) x y) ∧ Corr t st') ∧
    Ensures (M := M) (fun i => eqMany w (a i) (b i)) st (fun r st' =>
      IsShares r (List.zipWith (fun x y => ofBool (x = y)) x y) ∧ Corr t st') := by
  refine ⟨(spec_eqBitMany hw ha hb hl hst).ensures, ?_⟩
  have hl' : ∀ i, (a i).length = (b i).length := fun i => by
    rw [Cols.length ha i, Cols.length hb i, hl]
  simp only [eqMany, hl', ne_eq, not_true_eq_false, if_false]
  refine (Spec.bind (spec_eqBitMany hw ha hb hl hst) ?_).ensures
  rintro r st' ⟨hr, hst'⟩
  have := spec_bitInjectMany (M := M) (p := p) (by omega) hr hst'
  rw [List.map_zipWith] at this
  exact this

example : Ensures (M := Msg) (fun i => eqMany 8 [three7 i, five7 i] [five7 i, five7 i]) states
    (fun r st' => IsShares r [0, 1] ∧ Corr .direct st') :=
  (C28_eq_many (by decide) isShares_35 (⟨[five7, five7], rfl, .cons isShare_five7
    (.cons isShare_five7 .nil)⟩ : IsShares _ [(5 : F7), 5]) rfl corr_states).2

omit [Sample R (ZMod p)] [Codec M (List (ZMod p))] [NeZero p] in
theorem isShares_promote (c : List (ZMod p)) :
    IsShares (fun i => c.map fun v => promoteToTrivialShare i v) c :=
  Cols.of_get c.length (by simp) rfl (fun k hk => by simpa using IsShare.promote c[k])

omit [Yao.YaoRng R] [Yao.YaoNet M] in
/-- C28: the vector forms with a public vector. -/
theorem C28_eq_public_many {a : PartyID → List (Share (ZMod p))} {x : List (ZMod p)}
    (hw : modBits p + 2 ≤ w) (ha : IsShares a x) (c : List (ZMod p)) (hl : x.length = c.length)
    (hst : Corr t st) :
    Ensures (M := M) (fun i => eqBitPublicMany w (a i) c) st (fun r st' =>
      IsBitShares r (List.zipWith (fun x y => decide (x = y)) x c) ∧ Corr t st') ∧
    Ensures (M := M) (fun i => eqPublicMany w (a i) c) st (fun r st' =>
      IsShares r (List.zipWith (fun x y => ofBool (x = y)) x c) ∧ Corr t st') := by
  have hl' : ∀ i, (a i).length = c.length := fun i => by
    rw [Cols.length ha i, hl]
  have key : Spec (M := M) (fun i => eqBitPublicMany w (a i) c) st (fun r st' =>
      IsBitShares r (List.zipWith (fun x y => decide (x = y)) x c) ∧ Corr t st') := by
    simp only [eqBitPublicMany, hl', ne_eq, not_true_eq_false, if_false]
    refine Spec.bind (spec_stateId hst) ?_
    rintro _ _ ⟨rfl, rfl⟩
    exact spec_eqBitMany hw ha (isShares_promote c) hl hst
  refine ⟨key.ensures, ?_⟩
  simp only [eqPublicMany, hl', ne_eq, not_true_eq_false, if_false]
  refine (Spec.bind key ?_).ensures
  rintro r st' ⟨hr, hst'⟩
  have := spec_bitInjectMany (M := M) (p := p) (by omega) hr hst'
  rw [List.map_zipWith] at this
  exact this

example : Ensures (M := Msg) (fun i => eqPublicMany 8 [three7 i, five7 i] [3, 3]) states
    (fun r st' => IsShares r [1, 0] ∧ Corr .direct st') :=
  (C28_eq_public_many (by decide) isShares_35 [3, 3] rfl corr_states).2

omit [Yao.YaoRng R] [Yao.YaoNet M] in
/-- C28: vectors of different length are an error, before anything is sent. -/
theorem C28_eq_many_lengths {a b : List (Share (ZMod p))} (h : a.length ≠ b.length) (i : PartyID)
    (s : Rep3State R) :
    (∃ e, (eqBitMany w a b : Rep3M R M _) i s = .fail (.err e)) ∧
    (∃ e, (eqMany w a b : Rep3M R M _) i s = .fail (.err e)) :=
  ⟨⟨_, by simp only [eqBitMany, if_pos h]; rfl⟩, ⟨_, by simp only [eqMany, if_pos h]; rfl⟩⟩

omit [Sample R (ZMod p)] [Codec M (List (ZMod p))] in
/-- C28: the opened zero test. -/
theorem C28_is_zero (hw : modBits p + 2 ≤ w) (ho : t = .yao → p % 2 = 1) (ha : IsShare a x) (hst : Corr t st) :
    Ensures (M := M) (fun i => isZero w (a i)) st
      (fun r st' => (∀ i, r i = decide (x = 0)) ∧ Corr t st') := by
  refine (Spec.bind (spec_eqBit hw ho .zero ha hst) ?_).ensures
  rintro r st' ⟨hr, hst'⟩
  refine Spec.bind (Bin.spec_open hr.1) ?_
  rintro v st'' ⟨rfl, rfl⟩
  refine Spec.pure ⟨fun i => ?_, hst'⟩
  have h10 : (0#w = 1#w) = False := by
    have h1 : 1 % 2 ^ w = 1 := Nat.mod_eq_of_lt (Nat.one_lt_two_pow (by omega))
    simp only [eq_iff_iff, iff_false]
    intro h
    have := congrArg BitVec.toNat h
    rw [BitVec.toNat_ofNat, BitVec.toNat_ofNat, h1, Nat.zero_mod] at this
    omega
  by_cases h : x = 0 <;> simp [h, h10, eq_comm]

example : Ensures (M := Msg) (fun i => isZero 8 (three7 i)) states
    (fun r st' => (∀ i, r i = false) ∧ Corr .direct st') :=
  C28_is_zero (by decide) (by decide) isShare_three7 corr_states

end Compare

omit [Sample R (ZMod p)] [Codec M (List (ZMod p))] [NeZero p] in
omit [Yao.YaoRng R] [Yao.YaoNet M] in
/-- C28: the zero test on XOR shares: the lowest `bits` bits are zero. -/
theorem C28_binary_is_zero {a : PartyID → Share (BitVec w)} {x : BitVec w} (bits : Nat) (h0 : 0 < bits)
    (hw : bits < w) (ha : IsBShare a x) (hst : Corr t st) :
    Ensures (M := M) (fun i => Bin.isZero bits (a i)) st
      (fun r st' => IsBitShare r (decide (x.toNat % 2 ^ bits = 0)) ∧ Corr t st') :=
  (Bin.spec_isZero bits h0 hw ha hst).ensures

omit [Sample R (ZMod p)] [Codec M (List (ZMod p))] [NeZero p] in
omit [Yao.YaoRng R] [Yao.YaoNet M] in
/-- C28: the vector form of the zero test on XOR shares. -/
theorem C28_binary_is_zero_many {a : PartyID → List (Share (BitVec w))} {x : List (BitVec w)}
    (bits : Nat) (h0 : 0 < bits) (hw : bits < w) (ha : IsBShares a x) (hst : Corr t st) :
    Ensures (M := M) (fun i => Bin.isZeroMany bits (a i)) st
      (fun r st' => IsBitShares r (x.map fun x => decide (x.toNat % 2 ^ bits = 0)) ∧ Corr t st') :=
  (Bin.spec_isZeroMany bits h0 hw ha hst).ensures

example : Ensures (M := Msg) (fun i => Bin.isZeroMany 3 [six8 i, three8 i]) states
    (fun r st' => IsBitShares r [false, false] ∧ Corr .direct st') :=
  C28_binary_is_zero_many 3 (by decide) (by decide) isBShares_63 corr_states

/-! ## C31 -/

/-- C31: multiplying a public value by two to a shared amount. Only the lowest eight bits of the amount
count. -/
theorem C31_shift_l_public_by_shared {a : PartyID → Share (BitVec w)} {x : BitVec w} (hp : 1 < p)
    (hw : modBits p + 2 ≤ w) (ho : t = .yao → p % 2 = 1)
    (hH : t = .yao → Yao.HashSeparates (Yao.YaoNet.hash M)) (c : ZMod p) (ha : IsBShare a x) (hst : Corr t st) :
    Ensures (M := M) (fun i => shiftLPublicByShared w c (a i)) st (fun r st' =>
      IsShare r (c * 2 ^ (x.toNat % 256)) ∧ Corr t st') :=
  (spec_shiftLPublicByShared hp c hw ho hH ha hst).ensures

/-- C31: exact for amounts below 256. -/
theorem C31_shift_exact {a : PartyID → Share (BitVec w)} {x : BitVec w} (hp : 1 < p)
    (hw : modBits p + 2 ≤ w) (ho : t = .yao → p % 2 = 1)
    (hH : t = .yao → Yao.HashSeparates (Yao.YaoNet.hash M)) (c : ZMod p) (ha : IsBShare a x) (hx : x.toNat < 256) (hst : Corr t st) :
    Ensures (M := M) (fun i => shiftLPublicByShared w c (a i)) st (fun r st' =>
      IsShare r (c * 2 ^ x.toNat) ∧ Corr t st') := by
  have := C31_shift_l_public_by_shared (M := M) hp hw ho hH c ha hst
  rwa [Nat.mod_eq_of_lt hx] at this

example (t : A2BType) : Ensures (M := Msg) (fun i => shiftLPublicByShared 8 (5 : F7) (three8 i)) (statesOf t)
    (fun r st' => IsShare r 5 ∧ Corr t st') :=
  C31_shift_exact (by decide) (by decide) (fun _ => rfl) (fun _ => demo_hash) 5 isBShare_three8 (by decide) (corr_statesOf t)

end Verif.Props
