import Verif.Yao.StreamLemmas
import Verif.Rep3.ConversionLemmas
import Verif.Props.Demo

/-!
# C63-C65: conversions through garbled circuits

Party 0 evaluates, parties 1 and 2 garble.  `IsYShare d y bits`: the garblers hold the same zero labels and the
evaluator holds, for each wire, the label of its bit under the offset `d` (`Verif/Spec/YaoShare.lean`).  The label
hash and the digest of the circuit are arbitrary functions.  `val` reads bits as a number, least significant first.
-/

namespace Verif.Props

open Verif.Rep3 Verif.Yao PartyID Demo

variable {R M : Type} {w p : Nat} {t : A2BType} [NeZero p] [YaoRng R] [YaoNet M] {st : PartyID → Rep3State R}

/-! ## C63: into wire labels -/

omit [YaoNet M] in
/-- C63: the garblers draw the same offset, its colour bit is one, and the evaluator has none. -/
theorem C63_delta (hst : Corr t st) :
    Ensures (M := M) (fun _ => generateRandomGarblerDelta) st (fun r st' =>
      r ID0 = none ∧ (∃ d, r ID1 = some d ∧ r ID2 = some d ∧ d.color = true) ∧ Corr t st') :=
  (spec_delta' hst).ensures

section

variable {delta : PartyID → Option Label} {d : Label}

/-- C63: a shared field element becomes wires that carry the bits of its canonical representative. -/
theorem C63_a2y (hp : p % 2 = 1) {a : PartyID → Share (ZMod p)} {x : ZMod p} (ha : IsShare a x)
    (hd : IsDelta delta d) (hst : Corr t st) :
    Ensures (M := M) (fun i => a2y (a i) (delta i)) st (fun r st' =>
      (∃ bits, IsYShare d r bits ∧ bits.length = modBits p ∧ val bits = x.val) ∧ Corr t st') :=
  ((spec_a2y hp ha hd hst).mono fun _ _ h =>
    ⟨⟨_, h.1, length_fieldBits x, val_fieldBits x⟩, h.2⟩).ensures

/-- C63: the same when the circuit is streamed gate by gate. -/
theorem C63_a2y_streaming (hp : p % 2 = 1) {a : PartyID → Share (ZMod p)} {x : ZMod p} (ha : IsShare a x)
    (hd : IsDelta delta d) (hst : Corr t st) :
    Ensures (M := M) (fun i => a2yStreaming (a i) (delta i)) st (fun r st' =>
      (∃ bits, IsYShare d r bits ∧ bits.length = modBits p ∧ val bits = x.val) ∧ Corr t st') :=
  ((spec_a2yStreaming hp ha hd hst).mono fun _ _ h =>
    ⟨⟨_, h.1, length_fieldBits x, val_fieldBits x⟩, h.2⟩).ensures

/-- C63: the vector form: `y` holds, for each element, a bundle of wires that carries its bits. -/
theorem C63_a2y_many (hp : p % 2 = 1) {a : PartyID → List (Share (ZMod p))} {x : List (ZMod p)}
    (ha : IsShares a x) (hd : IsDelta delta d) (hst : Corr t st) :
    Ensures (M := M) (fun i => a2yMany (a i) (delta i)) st (fun r st' =>
      (∃ y : List (PartyID → List Label), (r = fun i => y.map fun s => s i) ∧
        List.Forall₂ (fun y x => ∃ bits, IsYShare d y bits ∧ bits.length = modBits p ∧ val bits = ZMod.val x) y x) ∧
      Corr t st') := by
  refine ((spec_a2yMany hp ha hd hst).mono ?_).ensures
  rintro r st' ⟨⟨y, e, hy⟩, h⟩
  rw [List.forall₂_map_right_iff] at hy
  exact ⟨⟨y, e, hy.imp fun _ x h => ⟨_, h, length_fieldBits x, val_fieldBits x⟩⟩, h⟩

omit [NeZero p] in
/-- C63: a shared bit string becomes wires that carry its low bits. -/
theorem C63_b2y {a : PartyID → Share (BitVec w)} {x : BitVec w} (ha : IsBShare a x)
    (hd : IsDelta delta d) (hst : Corr t st) :
    Ensures (M := M) (fun i => b2y p (a i) (delta i)) st (fun r st' =>
      (∃ bits, IsYShare d r bits ∧ bits.length = modBits p ∧ val bits = x.toNat % 2 ^ modBits p) ∧ Corr t st') :=
  ((spec_b2y ha hd hst).mono fun _ _ h =>
    ⟨⟨_, h.1, length_uintToBits _ _, val_uintToBits _ _⟩, h.2⟩).ensures

end

/-- An offset for the examples. -/
def demoDelta : PartyID → Option Label := three none (some 5#128) (some 5#128)

theorem isDelta_demo : IsDelta demoDelta 5#128 := ⟨rfl, rfl, by decide⟩

example : Ensures (M := Msg) (fun i => a2y (five7 i) (demoDelta i)) states (fun r st' =>
    (∃ bits, IsYShare 5#128 r bits ∧ bits.length = 3 ∧ val bits = 5) ∧ Corr .direct st') :=
  C63_a2y (by decide) isShare_five7 isDelta_demo corr_states

example : Ensures (M := Msg) (fun i => a2yStreaming (five7 i) (demoDelta i)) states (fun r st' =>
    (∃ bits, IsYShare 5#128 r bits ∧ bits.length = 3 ∧ val bits = 5) ∧ Corr .direct st') :=
  C63_a2y_streaming (by decide) isShare_five7 isDelta_demo corr_states

example : Ensures (M := Msg) (fun i => b2y 7 (six8 i) (demoDelta i)) states (fun r st' =>
    (∃ bits, IsYShare 5#128 r bits ∧ bits.length = 3 ∧ val bits = 6) ∧ Corr .direct st') :=
  C63_b2y isBShare_six8 isDelta_demo corr_states

/-! ## C64: into binary sharings -/

section

variable [Sample R (BitVec w)] [UintCodec M w]

omit [NeZero p] [YaoRng R] [YaoNet M] in
/-- C64: wires become a binary sharing of the number they carry. -/
theorem C64_y2b {d : Label} (hd : d.color = true) {y : PartyID → List Label} {bits : List Bool}
    (hw : bits.length ≤ w) (hy : IsYShare d y bits) (hst : Corr t st) :
    Ensures (M := M) (fun i => y2b (w := w) (y i)) st (fun r st' =>
      (∃ v, IsBShare r v ∧ v.toNat = val bits) ∧ Corr t st') :=
  ((spec_y2b hd hy hst).mono fun _ _ h => ⟨⟨_, h.1, by
    rw [BitVec.toNat_ofNat, Nat.mod_eq_of_lt]
    exact (val_lt bits).trans_le (Nat.pow_le_pow_right (by decide) hw)⟩, h.2⟩).ensures

/-- C64: conversion from arithmetic to binary through a garbled circuit gives, like the direct one, a binary
sharing of the canonical representative. -/
theorem C64_a2y2b (hp : p % 2 = 1) (hw : modBits p ≤ w) {a : PartyID → Share (ZMod p)} {x : ZMod p}
    (ha : IsShare a x) (hst : Corr t st) :
    Ensures (M := M) (fun i => a2y2b (w := w) (a i)) st (fun r st' =>
      (∃ v, IsBShare r v ∧ v.toNat = x.val) ∧ Corr t st') :=
  ((spec_a2y2b hp ha hst).mono fun _ _ h => ⟨⟨_, h.1, ofField_toNat hw x⟩, h.2⟩).ensures

/-- C64: the streamed form. -/
theorem C64_a2y2b_streaming (hp : p % 2 = 1) (hw : modBits p ≤ w) {a : PartyID → Share (ZMod p)} {x : ZMod p}
    (ha : IsShare a x) (hst : Corr t st) :
    Ensures (M := M) (fun i => a2y2bStreaming (w := w) (a i)) st (fun r st' =>
      (∃ v, IsBShare r v ∧ v.toNat = x.val) ∧ Corr t st') :=
  ((spec_a2y2bStreaming hp ha hst).mono fun _ _ h => ⟨⟨_, h.1, ofField_toNat hw x⟩, h.2⟩).ensures

/-- C64: the vector form. -/
theorem C64_a2y2b_many (hp : p % 2 = 1) (hw : modBits p ≤ w) {a : PartyID → List (Share (ZMod p))}
    {x : List (ZMod p)} (ha : IsShares a x) (hst : Corr t st) :
    Ensures (M := M) (fun i => a2y2bMany (w := w) (a i)) st (fun r st' =>
      (∃ v, IsBShares r v ∧ v.map BitVec.toNat = x.map ZMod.val) ∧ Corr t st') :=
  ((spec_a2y2bMany hp ha hst).mono fun _ _ h => ⟨⟨_, h.1, by
    simp only [List.map_map]
    exact List.map_congr_left fun x _ => ofField_toNat hw x⟩, h.2⟩).ensures

end

example : Ensures (M := Msg) (fun i => a2y2b (w := 8) (three7 i)) states (fun r st' =>
    (∃ v, IsBShare r v ∧ v.toNat = 3) ∧ Corr .direct st') :=
  C64_a2y2b (by decide) (by decide) isShare_three7 corr_states

example : Ensures (M := Msg) (fun i => a2y2bStreaming (w := 8) (three7 i)) states (fun r st' =>
    (∃ v, IsBShare r v ∧ v.toNat = 3) ∧ Corr .direct st') :=
  C64_a2y2b_streaming (by decide) (by decide) isShare_three7 corr_states

example : Ensures (M := Msg) (fun i => a2y2bMany (w := 8) [three7 i, five7 i]) states (fun r st' =>
    (∃ v, IsBShares r v ∧ v.map BitVec.toNat = [3, 5]) ∧ Corr .direct st') :=
  C64_a2y2b_many (by decide) (by decide) isShares_35 corr_states

example : Ensures (M := Msg) (fun i => y2b (w := 8)
    ((three (encodes 5 [1, 2, 3] [true, false, true]) [1, 2, 3] [1, 2, 3] : PartyID → List Label) i)) states
    (fun r st' => (∃ v, IsBShare r v ∧ v.toNat = 5) ∧ Corr .direct st') :=
  C64_y2b (d := 5) (bits := [true, false, true]) (by decide) (by decide) ⟨rfl, rfl, rfl⟩ corr_states

/-! ## C65: into arithmetic sharings

The garbled outputs are decoded by comparing hashes of labels, so the hash must tell the two labels of each
output wire apart: `Separated (YaoNet.hash M) (r ID1)`, where `r ID1` are the offset and the zero labels of the
output wires in the execution in question. -/

section

variable [Sample R (ZMod p)]

/-- C65: wires that carry the bits of a field element become a sharing of it. -/
theorem C65_y2a (hp : p % 2 = 1) (hw : modBits p ≤ w) {y : PartyID → List Label} {bits : List Bool} {x : ZMod p}
    {delta : PartyID → Option Label} {d : Label} (hd : IsDelta delta d) (hy : IsYShare d y bits)
    (hl : bits.length = modBits p) (hx : val bits = x.val) (hst : Corr t st)
    (hsep : Ensures (M := M) (fun i => y2aLabels (fieldType p) (y i) (delta i)) st (fun r _ =>
      Separated (YaoNet.hash M) (r ID1))) :
    Ensures (M := M) (fun i => y2a (p := p) w (y i) (delta i)) st (fun r st' => IsShare r x ∧ Corr t st') := by
  rw [fieldBits_eq hl hx] at hy
  exact (spec_y2a hp hw hd hy hst (ensures_iff.1 hsep)).ensures

/-- C65: the same when the circuit is streamed gate by gate. -/
theorem C65_y2a_streaming (hp : p % 2 = 1) (hw : modBits p ≤ w) {y : PartyID → List Label} {bits : List Bool}
    {x : ZMod p} {delta : PartyID → Option Label} {d : Label} (hd : IsDelta delta d) (hy : IsYShare d y bits)
    (hl : bits.length = modBits p) (hx : val bits = x.val) (hst : Corr t st)
    (hsep : Ensures (M := M) (fun i => y2aLabels (fieldType p) (y i) (delta i)) st (fun r _ =>
      Separated (YaoNet.hash M) (r ID1))) :
    Ensures (M := M) (fun i => y2aStreaming (p := p) w (y i) (delta i)) st (fun r st' =>
      IsShare r x ∧ Corr t st') := by
  rw [fieldBits_eq hl hx] at hy
  exact (spec_y2aStreaming hp hw hd hy hst (ensures_iff.1 hsep)).ensures

/-- C65: a binary sharing of a number below the modulus becomes an arithmetic sharing of it. -/
theorem C65_b2y2a (hp : p % 2 = 1) (hw : modBits p ≤ w) {a : PartyID → Share (BitVec w)} {x : BitVec w}
    (ha : IsBShare a x) (hx : x.toNat < p) (hst : Corr t st)
    (hsep : Ensures (M := M) (fun i => b2y2aLabels p (a i)) st (fun r _ => Separated (YaoNet.hash M) (r ID1))) :
    Ensures (M := M) (fun i => b2y2a (p := p) (a i)) st (fun r st' => IsShare r (x.toNat : ZMod p) ∧ Corr t st') :=
  (spec_b2y2a hp hw ha hx hst (ensures_iff.1 hsep)).ensures

/-- C65: the streamed form. -/
theorem C65_b2y2a_streaming (hp : p % 2 = 1) (hw : modBits p ≤ w) {a : PartyID → Share (BitVec w)} {x : BitVec w}
    (ha : IsBShare a x) (hx : x.toNat < p) (hst : Corr t st)
    (hsep : Ensures (M := M) (fun i => b2y2aLabels p (a i)) st (fun r _ => Separated (YaoNet.hash M) (r ID1))) :
    Ensures (M := M) (fun i => b2y2aStreaming (p := p) (a i)) st (fun r st' =>
      IsShare r (x.toNat : ZMod p) ∧ Corr t st') :=
  (spec_b2y2aStreaming hp hw ha hx hst (ensures_iff.1 hsep)).ensures

/-- C65: the condition on the hash is met in every execution if the hash never maps two labels that differ in
their colour to the same output hash. -/
theorem C65_separated (hH : HashSeparates (YaoNet.hash M)) (hp : p % 2 = 1)
    {a : PartyID → Share (BitVec w)} {x : BitVec w} (ha : IsBShare a x) (hx : x.toNat < p) (hst : Corr t st) :
    Ensures (M := M) (fun i => b2y2aLabels p (a i)) st (fun r _ => Separated (YaoNet.hash M) (r ID1)) :=
  (separated_b2y2a hH hp ha hx hst).ensures

end

example : Ensures (M := Msg) (fun i => b2y2a (p := 7) (six8 i)) states (fun r st' =>
    IsShare r (6 : F7) ∧ Corr .direct st') :=
  C65_b2y2a (by decide) (by decide) isBShare_six8 (by decide) corr_states
    (C65_separated demo_hash (by decide) isBShare_six8 (by decide) corr_states)

example : Ensures (M := Msg) (fun i => b2y2aStreaming (p := 7) (six8 i)) states (fun r st' =>
    IsShare r (6 : F7) ∧ Corr .direct st') :=
  C65_b2y2a_streaming (by decide) (by decide) isBShare_six8 (by decide) corr_states
    (C65_separated demo_hash (by decide) isBShare_six8 (by decide) corr_states)

end Verif.Props
