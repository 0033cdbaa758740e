import Verif.Rep3.StateLemmas
import Verif.Spec.Sharing
import Verif.Rep3.Binary
import Verif.Yao.Protocol
import Verif.Spec.YaoShare
import Mathlib.Data.ZMod.Basic
import Mathlib.Algebra.Field.ZMod
import Mathlib.Tactic.NormNum.Prime

/-!
# A concrete instance

Used only in the `example`s next to the property theorems, to show that their hypotheses can be met:
a counter as generator, the field with seven elements, and three synchronised states.
-/

namespace Verif.Demo

open PartyID

instance : Fact (Nat.Prime 7) := ⟨by norm_num⟩

abbrev F7 := ZMod 7

instance : Sample Nat F7 := ⟨fun r => (r, r + 1)⟩
instance : Sample Nat Nat := ⟨fun r => (r, r + 1)⟩
instance {w : Nat} : Sample Nat (BitVec w) := ⟨fun r => (BitVec.ofNat w r, r + 1)⟩
instance : SampleVec Nat F7 := ⟨fun r n => (List.replicate n r, r + n), by simp⟩
instance : Seedable Nat Nat := ⟨fun s => 1000 * s⟩

/-- Messages of the demonstration: a tagged union of everything that is sent. -/
inductive Msg where
  | f (x : List F7)
  | f1 (x : F7)
  | fv (x : List (List F7))
  | n (x : List Nat)
  | p (x : List (Nat × Nat))
  | b (w : Nat) (x : List (BitVec w))
  | bp (w : Nat) (x : List (BitVec w × BitVec w))
  | bv (w : Nat) (x : List (List (BitVec w)))
  | bvs (w : Nat) (x : List (List (BitVec w) × List (BitVec w)))

instance : Yao.YaoRng Nat := ⟨Nat, inferInstance, inferInstance, inferInstance⟩
instance : Codec Msg (List F7) := ⟨.f, fun | .f x => some x | _ => none, fun _ => rfl⟩
instance : Codec Msg (List (List F7)) := ⟨.fv, fun | .fv x => some x | _ => none, fun _ => rfl⟩
instance : Codec Msg F7 := ⟨.f1, fun | .f1 x => some x | _ => none, fun _ => rfl⟩
instance : Codec Msg (List Nat) := ⟨.n, fun | .n x => some x | _ => none, fun _ => rfl⟩
instance : Codec Msg (List (Nat × Nat)) := ⟨.p, fun | .p x => some x | _ => none, fun _ => rfl⟩
instance {w : Nat} : Codec Msg (List (BitVec w)) :=
  ⟨.b w, fun | .b w' x => if h : w' = w then some (h ▸ x) else none | _ => none, fun _ => by simp⟩

instance : Yao.YaoNet Msg where
  hash _ x := x
  digest x := BitVec.ofNat 256 x.length
  labels := inferInstanceAs (Codec Msg (List (BitVec 128)))
  digests := inferInstanceAs (Codec Msg (List (BitVec 256)))

instance {w : Nat} : UintCodec Msg w where
  one := inferInstance
  pair := ⟨.bp w, fun | .bp w' x => if h : w' = w then some (h ▸ x) else none | _ => none, fun _ => by simp⟩
  vec := ⟨.bv w, fun | .bv w' x => if h : w' = w then some (h ▸ x) else none | _ => none, fun _ => by simp⟩
  vecs := ⟨.bvs w, fun | .bvs w' x => if h : w' = w then some (h ▸ x) else none | _ => none, fun _ => by simp⟩

theorem demo_hash : Yao.HashSeparates (Yao.YaoNet.hash Msg) := by
  intro i x y h e
  exact h (congrArg Yao.Label.color e)

/-- Three synchronised states, with either way of converting between arithmetic and binary shares. -/
def statesOf (t : A2BType) : PartyID → Rep3State Nat := three
  ⟨ID0, ⟨⟨10, 30⟩, ⟨1, 2, none⟩, ⟨4, 5, some 6⟩⟩, 100, t⟩
  ⟨ID1, ⟨⟨20, 10⟩, ⟨7, 2, some 1⟩, ⟨5, 4, none⟩⟩, 101, t⟩
  ⟨ID2, ⟨⟨30, 20⟩, ⟨2, 1, some 7⟩, ⟨6, 4, some 5⟩⟩, 102, t⟩

theorem corr_statesOf (t : A2BType) : Corr t (statesOf t) := by
  constructor <;> (try intro i) <;> (try cases i) <;> rfl

/-- Three synchronised states that convert directly. -/
abbrev states : PartyID → Rep3State Nat := statesOf .direct

theorem corr_states : Corr .direct states := corr_statesOf .direct

/-- A sharing of `3`: `2 + 4 + 4`. -/
def three7 : PartyID → Share F7 := three ⟨2, 4⟩ ⟨4, 2⟩ ⟨4, 4⟩
/-- A sharing of `5`: `6 + 5 + 1`. -/
def five7 : PartyID → Share F7 := three ⟨6, 1⟩ ⟨5, 6⟩ ⟨1, 5⟩
/-- A sharing of `1`: `3 + 3 + 2`. -/
def one7 : PartyID → Share F7 := three ⟨3, 2⟩ ⟨3, 3⟩ ⟨2, 3⟩

theorem isShare_three7 : IsShare three7 3 := ⟨by intro i; cases i <;> rfl, by decide⟩
theorem isShare_five7 : IsShare five7 5 := ⟨by intro i; cases i <;> rfl, by decide⟩
theorem isShare_one7 : IsShare one7 1 := ⟨by intro i; cases i <;> rfl, by decide⟩

/-- An XOR sharing of `6`: `1 ⊕ 2 ⊕ 5`. -/
def six8 : PartyID → Share (BitVec 8) := three ⟨1, 5⟩ ⟨2, 1⟩ ⟨5, 2⟩
/-- An XOR sharing of `3`: `9 ⊕ 7 ⊕ 13`. -/
def three8 : PartyID → Share (BitVec 8) := three ⟨9, 13⟩ ⟨7, 9⟩ ⟨13, 7⟩
/-- An XOR sharing of the bit `1`: `1 ⊕ 1 ⊕ 1`. -/
def true8 : PartyID → Share (BitVec 8) := three ⟨1, 1⟩ ⟨1, 1⟩ ⟨1, 1⟩

theorem isBShare_six8 : IsBShare six8 6#8 := ⟨by intro i; cases i <;> rfl, by decide⟩
theorem isBShare_three8 : IsBShare three8 3#8 := ⟨by intro i; cases i <;> rfl, by decide⟩
theorem isBitShare_true8 : IsBitShare true8 true :=
  ⟨⟨by intro i; cases i <;> rfl, by decide⟩, by intro i; cases i <;> decide⟩
theorem isBShares_63 : IsBShares (fun i => [six8 i, three8 i]) [6#8, 3#8] :=
  ⟨[six8, three8], rfl, .cons isBShare_six8 (.cons isBShare_three8 .nil)⟩
theorem isBShares_36 : IsBShares (fun i => [three8 i, six8 i]) [3#8, 6#8] :=
  ⟨[three8, six8], rfl, .cons isBShare_three8 (.cons isBShare_six8 .nil)⟩

theorem isShares_35 : IsShares (fun i => [three7 i, five7 i]) [3, 5] :=
  ⟨[three7, five7], rfl, .cons isShare_three7 (.cons isShare_five7 .nil)⟩
theorem isShares_51 : IsShares (fun i => [five7 i, one7 i]) [5, 1] :=
  ⟨[five7, one7], rfl, .cons isShare_five7 (.cons isShare_one7 .nil)⟩

end Verif.Demo
