import Verif.CircomVm.VmRel
import Mathlib.Tactic.Ring
import Mathlib.Algebra.BigOperators.Ring.Finset
import Mathlib.Algebra.BigOperators.Intervals
import Verif.CircomVm.SourceSpec
import Verif.Spec.Accel

/-!
# The accelerators for components, in the clear
-/

namespace Verif.CircomVm

open Rep3 Spec.Accel

variable {p : Nat}

theorem frame_of {α : Type} {a b : List α} {o n k : Nat} {outs ins mids m : List α} (hn : outs.length = n)
    (hr : readSlice a (o + n) k = some ins) (h1 : writeSlice a o outs = some m)
    (h2 : writeSlice m (o + n + k) mids = some b) : Frame a b o outs ins mids := by
  subst hn
  simp only [readSlice, writeSlice, Option.ite_none_right_eq_some, Option.some.injEq] at hr h1 h2
  obtain ⟨h3, rfl⟩ := hr
  obtain ⟨h4, rfl⟩ := h1
  obtain ⟨h5, rfl⟩ := h2
  have hl : (a.take o ++ outs ++ a.drop (o + outs.length)).length = a.length := by simp; omega
  rw [hl] at h5
  refine ⟨a.take o, (a.drop o).take outs.length, (a.drop (o + outs.length + k)).take mids.length,
    a.drop (o + outs.length + k + mids.length), ?_, ?_, ?_, ?_, ?_⟩
  · simp; omega
  · simp; omega
  · simp; omega
  · conv_lhs => rw [← List.take_append_drop o a, ← List.take_append_drop outs.length (a.drop o), List.drop_drop,
      ← List.take_append_drop k (a.drop (o + outs.length)), List.drop_drop,
      ← List.take_append_drop mids.length (a.drop (o + outs.length + k)), List.drop_drop]
    simp only [List.append_assoc]
  · have e1 : (a.take o ++ outs).length = o + outs.length := by simp; omega
    have e2 : o + outs.length + k = (a.take o ++ outs).length + k := by rw [e1]
    have e3 : o + outs.length + k + mids.length = (a.take o ++ outs).length + (k + mids.length) := by rw [e1]; omega
    rw [e3, e2, List.take_length_add_append, List.drop_length_add_append, List.drop_drop, e1]

theorem of_frame {α : Type} {a b : List α} {o n k : Nat} {outs ins mids : List α} (hn : outs.length = n)
    (hk : ins.length = k) (h : Frame a b o outs ins mids) :
    readSlice a (o + n) k = some ins ∧ ∃ m, writeSlice a o outs = some m ∧ writeSlice m (o + n + k) mids = some b := by
  subst hn hk
  obtain ⟨u, x, y, z, rfl, hx, hy, rfl, rfl⟩ := h
  refine ⟨?_, u ++ outs ++ ins ++ y ++ z, ?_, ?_⟩
  · rw [readSlice, if_pos (by simp; omega), ← hx]
    simp [List.drop_append, List.take_append, List.drop_eq_nil_of_le, Nat.sub_self]
  · rw [writeSlice, if_pos (by simp; omega), ← hx]
    simp [List.drop_append, List.take_append, List.drop_eq_nil_of_le, Nat.sub_self]
  · rw [writeSlice, if_pos (by simp; omega), ← hy]
    have e1 : u.length + outs.length + ins.length = (u ++ outs ++ ins).length := by simp only [List.length_append]
    have e2 : (u ++ outs ++ ins).length + y.length = (u ++ outs ++ ins ++ y).length := by simp only [List.length_append]
    rw [e1, e2, List.append_assoc (u ++ outs ++ ins) y z, List.take_left, ← List.append_assoc, List.drop_left]

variable [Fact p.Prime] [HasSqrt (ZMod p)]

theorem accelerate_iff {d : TemplateDecl} {o : Nat} {a b : List (ZMod p)} {acc : Accel} :
    accelerate (plain p) d o a acc = .ok b ↔ ∃ outs ins mids, outs.length = d.outputSignals ∧ ins.length = d.inputSignals ∧
      runAccel (plain p) d ins acc = .ok (outs, mids) ∧ Frame a b o outs ins mids := by
  have hf : ∀ {α : Type} e, (plain p).fail (α := α) e = .error e := fun _ => rfl
  unfold accelerate
  constructor
  · intro h
    obtain ⟨ins, h1, h⟩ := bind_ok h
    obtain ⟨⟨outs, mids⟩, h2, h⟩ := bind_ok h
    rw [orFail_ok hf] at h1
    split at h
    · cases h
    · rename_i hn
      obtain ⟨m, h3, h⟩ := bind_ok h
      rw [orFail_ok hf] at h3 h
      have hn' : outs.length = d.outputSignals := by simpa using hn
      have hi : ins.length = d.inputSignals := by
        simp only [readSlice, Option.ite_none_right_eq_some, Option.some.injEq] at h1
        obtain ⟨h4, rfl⟩ := h1
        simp; omega
      exact ⟨outs, ins, mids, hn', hi, h2, frame_of hn' h1 h3 h⟩
  · rintro ⟨outs, ins, mids, hn, hk, h2, h⟩
    obtain ⟨h1, m, h3, h4⟩ := of_frame hn hk h
    refine Except.bind_ok_iff.mpr ⟨_, (orFail_ok hf).mpr h1, Except.bind_ok_iff.mpr ⟨_, h2, ?_⟩⟩
    rw [if_neg (by simpa using hn)]
    exact Except.bind_ok_iff.mpr ⟨_, (orFail_ok hf).mpr h3, (orFail_ok hf).mpr h4⟩

theorem accelIsZero_iff {ins outs mids : List (ZMod p)} :
    accelIsZero (plain p) ins = .ok (outs, mids) ↔
      ∃ inp inv out, ins = [inp] ∧ outs = [out] ∧ mids = [inv] ∧ IsZero inp inv out := by
  rcases ins with _ | ⟨x, _ | ⟨y, r⟩⟩
  · constructor
    · intro h; cases h
    · rintro ⟨_, _, _, h, -⟩; cases h
  · have key : accelIsZero (plain p) [x] = .ok ([if x = 0 then 1 else 0], [if x = 0 then 0 else x⁻¹]) := by
      simp only [accelIsZero]
      show (plainBin .eq x (0 : ZMod p) >>= fun z => plainBin .add x z >>= fun i => plainBin .div (1 : ZMod p) i >>= fun v =>
        plainBin .sub v z >>= fun h => pure ([z], [h])) = _
      by_cases hx : x = 0
      · subst hx; simp [plainBin, bit, bind, Except.bind, pure, Except.pure]
      · simp [plainBin, bit, bind, Except.bind, pure, Except.pure, hx]
    rw [key]
    constructor
    · intro h
      cases h
      refine ⟨x, _, _, rfl, rfl, rfl, ?_, ?_⟩
      · by_cases hx : x = 0 <;> simp [hx]
      · by_cases hx : x = 0 <;> simp [hx]
    · rintro ⟨_, _, _, h1, rfl, rfl, rfl, rfl⟩
      cases h1
      by_cases hx : x = 0 <;> simp [hx]
  · constructor
    · intro h; cases h
    · rintro ⟨_, _, _, h, -⟩; cases h

omit [Fact p.Prime] [HasSqrt (ZMod p)] in
theorem bitOf_eq (x : ZMod p) (i : Nat) : bitOf x i = bit (x.val.testBit i) := by
  rw [bitOf, Nat.and_one_is_mod, Nat.testBit_eq_decide_div_mod_eq, Nat.shiftRight_eq_div_pow, bit]
  have := Nat.mod_two_eq_zero_or_one (x.val / 2 ^ i)
  rcases this with h | h <;> simp [h]

theorem accelNum2bits_iff {ins outs mids : List (ZMod p)} {n : Nat} :
    accelNum2bits (plain p) ins n = .ok (outs, mids) ↔
      ∃ inp, ins = [inp] ∧ outs.length = n ∧ mids = [] ∧ Num2Bits inp outs := by
  rcases ins with _ | ⟨x, _ | ⟨y, r⟩⟩
  · constructor
    · intro h; cases h
    · rintro ⟨_, h, -⟩; cases h
  · have key : accelNum2bits (plain p) [x] n = .ok (plainNum2bits x n, []) := rfl
    have hl : (plainNum2bits x n).length = n := by simp [plainNum2bits]
    have hb : ∀ i < n, (plainNum2bits x n)[i]? = some (bitOf x i) := fun i hi => by
      simp [plainNum2bits, List.getElem?_range hi, bitOf_eq]
    rw [key]
    constructor
    · intro h
      cases h
      exact ⟨x, rfl, hl, rfl, fun i hi => hb i (hl ▸ hi)⟩
    · rintro ⟨_, h1, h2, rfl, h3⟩
      cases h1
      refine congrArg (fun l => Except.ok (l, [])) (List.ext_getElem? fun i => ?_)
      rcases Nat.lt_or_ge i n with hi | hi
      · rw [hb i hi, h3 i (h2 ▸ hi)]
      · rw [List.getElem?_eq_none (by omega), List.getElem?_eq_none (by omega)]
  · constructor
    · intro h; cases h
    · rintro ⟨_, h, -⟩; cases h

omit [HasSqrt (ZMod p)] in
theorem fromBits_sum (l : List (ZMod p)) :
    fromBits l = ∑ k ∈ Finset.range l.length, l.getD k 0 * 2 ^ (l.length - 1 - k) := by
  induction l using List.reverseRecOn with
  | nil => rfl
  | append_singleton l x ih =>
    have : fromBits (l ++ [x]) = fromBits l + fromBits l + x := by simp [fromBits, List.foldl_append]
    rw [this, ih, List.length_append, List.length_singleton, Finset.sum_range_succ]
    have h1 : (l ++ [x]).getD l.length 0 = x := by simp
    rw [h1, Nat.add_sub_cancel, Nat.sub_self, pow_zero, mul_one]
    congr 1
    rw [← two_mul, Finset.mul_sum]
    refine Finset.sum_congr rfl fun k hk => ?_
    have hk' := Finset.mem_range.mp hk
    have h2 : (l ++ [x]).getD k 0 = l.getD k 0 := by simp [List.getElem?_append_left hk']
    have h3 : l.length - k = l.length - 1 - k + 1 := by omega
    rw [h2, h3, pow_succ]
    ring

omit [HasSqrt (ZMod p)] in
theorem lin_eq {a b : List (ZMod p)} (h : a.length = b.length) : lin a b = fromBits a + fromBits b := by
  rw [fromBits_sum, fromBits_sum, lin, ← h, ← Finset.sum_add_distrib]
  exact Finset.sum_congr rfl fun k _ => add_mul _ _ _

omit [HasSqrt (ZMod p)] in
theorem plainAddbits_iff {a b out : List (ZMod p)} {carry : ZMod p} (hl : a.length = b.length) :
    plainAddbits a b = .ok (out, carry) ↔ a.length < modBits p - 1 ∧ AddBits a b carry out := by
  unfold plainAddbits
  rw [if_neg (by simpa using hl)]
  split
  · rename_i hn
    constructor
    · intro h; cases h
    · rintro ⟨h, -⟩; exact absurd h hn
  · rename_i hn
    have hn' : a.length < modBits p - 1 := not_not.mp hn
    simp only
    rw [← lin_eq hl]
    have hb : ∀ k < a.length, (((List.range a.length).map fun i => (bit ((lin a b).val.testBit i) : ZMod p)).reverse)[k]? =
        some (bitOf (lin a b) (a.length - 1 - k)) := fun k hk => by
      rw [List.getElem?_reverse (by simpa using hk), List.getElem?_map, List.length_map, List.length_range,
        List.getElem?_range (by omega), bitOf_eq]
      rfl
    constructor
    · intro h
      cases h
      exact ⟨hn', by simp, hb, (bitOf_eq _ _).symm⟩
    · rintro ⟨-, h1, h2, rfl⟩
      rw [← bitOf_eq]
      refine congrArg (fun l => Except.ok (l, bitOf (lin a b) a.length)) (List.ext_getElem? fun i => ?_)
      rcases Nat.lt_or_ge i a.length with hi | hi
      · rw [hb i hi, h2 i hi]
      · rw [List.getElem?_eq_none (by simpa using hi), List.getElem?_eq_none (by omega)]

theorem accelAddbits_iff {ins outs mids : List (ZMod p)} :
    accelAddbits (plain p) ins = .ok (outs, mids) ↔
      ∃ a b carry, ins = a ++ b ∧ a.length = b.length ∧ mids = [carry] ∧ a.length < modBits p - 1 ∧ AddBits a b carry outs := by
  unfold accelAddbits
  split
  · rename_i h
    constructor
    · intro h; cases h
    · rintro ⟨a, b, _, rfl, h1, -⟩
      rw [List.length_append] at h
      omega
  · rename_i h
    constructor
    · intro h'
      obtain ⟨⟨r, c⟩, h1, h2⟩ := bind_ok h'
      cases h2
      have hl : (ins.take (ins.length / 2)).length = (ins.drop (ins.length / 2)).length := by simp; omega
      obtain ⟨h2, h3⟩ := (plainAddbits_iff hl).mp h1
      exact ⟨_, _, c, (List.take_append_drop _ _).symm, hl, rfl, h2, h3⟩
    · rintro ⟨a, b, c, rfl, h1, rfl, h2, h3⟩
      have e : (a ++ b).length / 2 = a.length := by rw [List.length_append]; omega
      rw [e, List.take_left, List.drop_left]
      exact Except.bind_ok_iff.mpr ⟨_, (plainAddbits_iff h1).mpr ⟨h2, h3⟩, rfl⟩

/-! ### The constraints -/

omit [HasSqrt (ZMod p)] in
theorem isZero_constraints {inp inv out : ZMod p} (h : IsZero inp inv out) :
    IsZeroConstraints inp inv out ∧ out = if inp = 0 then 1 else 0 := by
  obtain ⟨rfl, rfl⟩ := h
  by_cases h : inp = 0 <;> simp [IsZeroConstraints, h]

omit [HasSqrt (ZMod p)] in
theorem bit_constraint (c : Bool) : (bit c : ZMod p) * (bit c - 1) = 0 := by cases c <;> simp [bit]

omit [HasSqrt (ZMod p)] in
theorem sum_bits (x : Nat) (n : Nat) :
    ∑ i ∈ Finset.range n, (bit (x.testBit i) : ZMod p) * 2 ^ i = ((x % 2 ^ n : Nat) : ZMod p) := by
  induction n with
  | zero => simp [Nat.mod_one]
  | succ n ih =>
    rw [Finset.sum_range_succ, ih, Nat.mod_pow_succ, Nat.cast_add, Nat.cast_mul, Nat.cast_pow, Nat.cast_ofNat,
      Nat.testBit_eq_decide_div_mod_eq]
    rcases Nat.mod_two_eq_zero_or_one (x / 2 ^ n) with h | h <;> simp [h, bit]

omit [HasSqrt (ZMod p)] in
theorem num2bits_constraints {inp : ZMod p} {out : List (ZMod p)} (h : Num2Bits inp out) :
    Num2BitsConstraints inp out ↔ inp.val < 2 ^ out.length := by
  have h1 : ∀ i ∈ Finset.range out.length, out.getD i 0 * 2 ^ i = bit (inp.val.testBit i) * 2 ^ i := fun i hi => by
    rw [List.getD_eq_getElem?_getD, h i (Finset.mem_range.mp hi), Option.getD_some, bitOf_eq]
  have h2 : ∀ c ∈ out, c * (c - 1) = 0 := fun c hc => by
    obtain ⟨i, hi, rfl⟩ := List.getElem_of_mem hc
    have := h i hi
    rw [List.getElem?_eq_getElem hi, Option.some.injEq] at this
    rw [this, bitOf_eq, bit_constraint]
  rw [Num2BitsConstraints, Finset.sum_congr rfl h1, sum_bits]
  have hv := ZMod.val_lt inp
  have hm := Nat.mod_le inp.val (2 ^ out.length)
  constructor
  · rintro ⟨-, h3⟩
    have h4 := congrArg ZMod.val h3
    rw [ZMod.val_natCast, Nat.mod_eq_of_lt (by omega)] at h4
    have := Nat.mod_lt inp.val (Nat.two_pow_pos out.length)
    omega
  · intro h3
    exact ⟨h2, by rw [Nat.mod_eq_of_lt h3, ZMod.natCast_zmod_val]⟩

omit [HasSqrt (ZMod p)] in
theorem fromBits_lt {l : List (ZMod p)} (hb : ∀ c ∈ l, c = 0 ∨ c = 1) (hn : 2 ^ l.length ≤ p) :
    (fromBits l).val < 2 ^ l.length := by
  induction l using List.reverseRecOn with
  | nil => simp [fromBits]
  | append_singleton l x ih =>
    have e : fromBits (l ++ [x]) = fromBits l + fromBits l + x := by simp [fromBits, List.foldl_append]
    rw [List.length_append, List.length_singleton, pow_succ] at hn ⊢
    have h1 := ih (fun c hc => hb c (by simp [hc])) (by omega)
    have hx : x.val ≤ 1 := by
      rcases hb x (by simp) with h | h <;> rw [h]
      · simp
      · rw [ZMod.val_one]
    rw [e, ZMod.val_add_of_lt, ZMod.val_add_of_lt]
    · omega
    · omega
    · rw [ZMod.val_add_of_lt] <;> omega

omit [HasSqrt (ZMod p)] in
theorem addBits_constraints {a b out : List (ZMod p)} {carry : ZMod p} (hl : a.length = b.length)
    (hn : a.length < modBits p - 1) (ha : ∀ c ∈ a ++ b, c = 0 ∨ c = 1) (h : AddBits a b carry out) :
    AddBitsConstraints a b carry out := by
  obtain ⟨h1, h2, rfl⟩ := h
  have hp : 2 ^ (a.length + 1) ≤ p := by
    exact Nat.lt_size.mp (by rw [modBits] at hn; omega)
  have hA := fromBits_lt (fun c hc => ha c (List.mem_append_left _ hc)) (show 2 ^ a.length ≤ p by rw [pow_succ] at hp; omega)
  have hB := fromBits_lt (fun c hc => ha c (List.mem_append_right _ hc)) (show 2 ^ b.length ≤ p by rw [← hl]; rw [pow_succ] at hp; omega)
  have hlt : (lin a b).val < 2 ^ (a.length + 1) := by
    rw [← hl] at hB
    rw [pow_succ] at hp ⊢
    rw [lin_eq hl, ZMod.val_add_of_lt (by omega)]
    omega
  refine ⟨fun c hc => ?_, ?_⟩
  · rcases List.mem_cons.mp hc with rfl | hc
    · rw [bitOf_eq, bit_constraint]
    · obtain ⟨k, hk, rfl⟩ := List.getElem_of_mem hc
      have := h2 k (h1 ▸ hk)
      rw [List.getElem?_eq_getElem hk, Option.some.injEq] at this
      rw [this, bitOf_eq, bit_constraint]
  · rw [h1]
    have h3 : ∀ k ∈ Finset.range a.length, out.getD k 0 * 2 ^ (a.length - 1 - k) =
        (fun i => (bit ((lin a b).val.testBit i) : ZMod p) * 2 ^ i) (a.length - 1 - k) := fun k hk => by
      rw [List.getD_eq_getElem?_getD, h2 k (Finset.mem_range.mp hk), Option.getD_some, bitOf_eq]
    rw [Finset.sum_congr rfl h3, Finset.sum_range_reflect (fun i => (bit ((lin a b).val.testBit i) : ZMod p) * 2 ^ i),
      bitOf_eq, ← Finset.sum_range_succ (fun i => (bit ((lin a b).val.testBit i) : ZMod p) * 2 ^ i), sum_bits,
      Nat.mod_eq_of_lt hlt, ZMod.natCast_zmod_val]

/-! ### The marked run -/

/-- The marked run of an accelerator succeeds if the run in the clear does; `IsZero` divides by a secret. -/
theorem ref_runAccel {c : RefCfg} {d : TemplateDecl} {acc : Accel} (hc : acc = .isZero → c.randomized = true)
    {ins : List (RefVal p)} {outs mids : List (ZMod p)} (h : runAccel (plain p) d (ins.map VmVal.val) acc = .ok (outs, mids)) :
    ∃ outs' mids', runAccel (ref p c) d ins acc = .ok (outs', mids') ∧ outs'.map VmVal.val = outs ∧
      mids'.map VmVal.val = mids := by
  cases acc with
  | num2bits =>
    rcases ins with _ | ⟨x, _ | ⟨y, r⟩⟩
    · cases h
    · cases x with
      | pub x =>
        refine ⟨(plainNum2bits x d.outputSignals).map .pub, [], rfl, ?_, ?_⟩
        · cases h; simp [Function.comp_def, VmVal.val]
        · cases h; rfl
      | arith x =>
        refine ⟨(plainNum2bits x d.outputSignals).map .arith, [], rfl, ?_, ?_⟩
        · cases h; simp [Function.comp_def, VmVal.val]
        · cases h; rfl
    · cases h
  | addbits =>
    have h' : accelAddbits (plain p) (ins.map VmVal.val) = .ok (outs, mids) := h
    show ∃ outs' mids', accelAddbits (ref p c) ins = .ok (outs', mids') ∧ _
    unfold accelAddbits at h' ⊢
    rw [List.length_map] at h'
    split at h'
    · cases h'
    · rename_i hl
      rw [if_neg hl]
      obtain ⟨⟨r, k⟩, h1, h2⟩ := bind_ok h'
      cases h2
      rw [← List.map_take, ← List.map_drop] at h1
      have h1' : plainAddbits ((ins.take (ins.length / 2)).map VmVal.val) ((ins.drop (ins.length / 2)).map VmVal.val) =
        Except.ok (r, k) := h1
      refine ⟨r.map .arith, [.arith k], ?_, by simp [Function.comp_def, VmVal.val], rfl⟩
      refine Except.bind_ok_iff.mpr ⟨(r.map .arith, .arith k), ?_, rfl⟩
      show (plainAddbits _ _ >>= fun r => Except.ok (r.1.map VmVal.arith, VmVal.arith r.2)) = _
      rw [h1']
      rfl
  | isZero =>
    have hr := hc rfl
    rcases ins with _ | ⟨x, _ | ⟨y, r⟩⟩
    · cases h
    · obtain ⟨inp, inv, out, h1, rfl, rfl, h3⟩ := accelIsZero_iff.mp (show accelIsZero (plain p) [x.val] = .ok (outs, mids) from h)
      cases h1
      obtain ⟨⟨-, -⟩, ho⟩ := isZero_constraints h3
      have hi := h3.1
      cases x with
      | pub x =>
        refine ⟨[.pub out], [.pub inv], ?_, rfl, rfl⟩
        show (refBin c .eq (.pub x) (.pub 0) >>= fun z => refBin c .add (.pub x) z >>= fun i => refBin c .div (.pub 1) i >>=
          fun v => refBin c .sub v z >>= fun h => pure ([z], [h])) = _
        subst ho hi
        by_cases hx : x = 0
        · subst hx
          simp [refBin, plainBin, bit, bind, Except.bind, pure, Except.pure, Functor.map, Except.map, VmVal.val]
        · simp [refBin, plainBin, bit, bind, Except.bind, pure, Except.pure, Functor.map, Except.map, hx, VmVal.val]
      | arith x =>
        refine ⟨[.arith out], [.arith inv], ?_, rfl, rfl⟩
        show (refBin c .eq (.arith x) (.pub 0) >>= fun z => refBin c .add (.arith x) z >>= fun i => refBin c .div (.pub 1) i >>=
          fun v => refBin c .sub v z >>= fun h => pure ([z], [h])) = _
        subst ho hi
        by_cases hx : x = 0
        · subst hx
          simp [refBin, plainBin, bit, bind, Except.bind, pure, Except.pure, Functor.map, Except.map, VmVal.val, supported,
            publicResult, hr]
        · simp [refBin, plainBin, bit, bind, Except.bind, pure, Except.pure, Functor.map, Except.map, hx, VmVal.val, supported,
            publicResult, hr]
    · cases h
  | poseidon2 => cases h

theorem ref_accelerate {c : RefCfg} {d : TemplateDecl} {acc : Accel} (hc : acc = .isZero → c.randomized = true) {o : Nat}
    {vs : List (RefVal p)} {b : List (ZMod p)} (h : accelerate (plain p) d o (vs.map VmVal.val) acc = .ok b) :
    ∃ vs', accelerate (ref p c) d o vs acc = .ok vs' ∧ vs'.map VmVal.val = b := by
  have hf : ∀ {α : Type} e, (plain p).fail (α := α) e = .error e := fun _ => rfl
  have hf' : ∀ {α : Type} e, (ref p c).fail (α := α) e = .error e := fun _ => rfl
  unfold accelerate at h ⊢
  obtain ⟨ins, h1, h0⟩ := bind_ok h
  obtain ⟨⟨outs, mids⟩, h2, h⟩ := bind_ok h0
  rw [orFail_ok hf, readSlice_map, Option.map_eq_some_iff] at h1
  obtain ⟨ins', h1, e⟩ := h1
  rw [← e] at h2
  split at h
  · cases h
  rename_i hn
  obtain ⟨m, h3, h5⟩ := bind_ok h
  rw [orFail_ok hf] at h3 h5
  obtain ⟨outs', mids', h4, rfl, rfl⟩ := ref_runAccel hc h2
  rw [writeSlice_map, Option.map_eq_some_iff] at h3
  obtain ⟨m', h3, rfl⟩ := h3
  rw [writeSlice_map, Option.map_eq_some_iff] at h5
  obtain ⟨b', h5, rfl⟩ := h5
  refine ⟨b', Except.bind_ok_iff.mpr ⟨_, (orFail_ok hf').mpr h1, Except.bind_ok_iff.mpr ⟨_, h4, ?_⟩⟩, rfl⟩
  rw [if_neg (by simpa using hn)]
  exact Except.bind_ok_iff.mpr ⟨_, (orFail_ok hf').mpr h3, (orFail_ok hf').mpr h5⟩

end Verif.CircomVm
