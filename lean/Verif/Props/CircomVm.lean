import Verif.CircomVm.Rep3Lemmas
import Mathlib.Data.ZMod.ValMinAbs

/-!
# C80-C82: the operations of the circom witness extension VM

`Verif/CircomVm/Driver.lean` has the plain driver and the specification of the collaborative one (`supported`), and
`Verif/CircomVm/Sim.lean` says when the values of the parties represent a public or secret value (`Holds`).
The order of circom is that of `ZMod.valMinAbs`, the representative in `[-(p-1)/2, (p-1)/2]`.
-/

namespace Verif.Props

open Verif.CircomVm Verif.Rep3 PartyID Demo

section Plain

variable {p : Nat} [Fact p.Prime]

/-! ## C80: the plain driver -/

theorem shiftedVal_eq (ho : p % 2 = 1) (z : ZMod p) : ((shiftedVal z).val : Int) = z.valMinAbs + ((p - 1) / 2 : Nat) := by
  have h1 : 2 ≤ p := (Fact.out : p.Prime).two_le
  have hz := ZMod.val_lt z
  have hq : (p + 1) / 2 = (p - 1) / 2 + 1 := by omega
  have hq' : 2 * ((p - 1) / 2) + 1 = p := by omega
  rw [shiftedVal_val ho, ZMod.valMinAbs_def_pos]
  split <;> split <;> omega

/-- C80: the comparisons are those of the signed representatives. -/
theorem C80_compare (ho : p % 2 = 1) (a b : ZMod p) :
    plainBin .lt a b = .ok (if a.valMinAbs < b.valMinAbs then 1 else 0) ∧
    plainBin .le a b = .ok (if a.valMinAbs ≤ b.valMinAbs then 1 else 0) ∧
    plainBin .gt a b = .ok (if a.valMinAbs > b.valMinAbs then 1 else 0) ∧
    plainBin .ge a b = .ok (if a.valMinAbs ≥ b.valMinAbs then 1 else 0) ∧
    plainBin .eq a b = .ok (if a = b then 1 else 0) ∧
    plainBin .neq a b = .ok (if a = b then 0 else 1) := by
  have ha := shiftedVal_eq ho a
  have hb := shiftedVal_eq ho b
  have h1 : (shiftedVal a).val < (shiftedVal b).val ↔ a.valMinAbs < b.valMinAbs := by omega
  have h2 : (shiftedVal a).val ≤ (shiftedVal b).val ↔ a.valMinAbs ≤ b.valMinAbs := by omega
  have h3 : (shiftedVal a).val > (shiftedVal b).val ↔ a.valMinAbs > b.valMinAbs := by omega
  have h4 : (shiftedVal a).val ≥ (shiftedVal b).val ↔ a.valMinAbs ≥ b.valMinAbs := by omega
  simp only [plainBin, bit, decide_eq_true_eq, h1, h2, h3, h4, true_and]
  by_cases h : a = b <;> simp [h]

/-- Four is `-3` modulo seven. -/
example : plainBin .lt (4 : F7) 3 = .ok 1 := (C80_compare rfl 4 3).1.trans (by decide)

/-- C80: division with remainder. -/
theorem C80_division {a b q r : ZMod p} (hq : plainBin .intDiv a b = .ok q) (hr : plainBin .mod a b = .ok r) :
    a.val = q.val * b.val + r.val ∧ r.val < b.val := by
  simp only [plainBin] at hq hr
  split at hq
  · cases hq
  rename_i h0
  rw [if_neg h0] at hr
  rw [← ok_inj.mp hq, ← ok_inj.mp hr, ZMod.val_natCast, ZMod.val_natCast]
  have h1 := ZMod.val_lt a
  have h2 := ZMod.val_lt b
  have h3 := Nat.div_le_self a.val b.val
  have h4 := Nat.mod_lt a.val (Nat.pos_of_ne_zero h0)
  rw [Nat.mod_eq_of_lt (by omega), Nat.mod_eq_of_lt (by omega)]
  exact ⟨(Nat.div_add_mod' a.val b.val).symm, h4⟩

example : plainBin .intDiv (5 : F7) 3 = .ok 1 ∧ plainBin .mod (5 : F7) 3 = .ok 2 := by decide

/-- C80: the quotient and the remainder exist unless the divisor is zero; the field quotient too. -/
theorem C80_division_total (a b : ZMod p) :
    ((∃ q, plainBin .intDiv a b = .ok q) ↔ b ≠ 0) ∧ ((∃ r, plainBin .mod a b = .ok r) ↔ b ≠ 0) ∧
    ((∃ r, plainBin .div a b = .ok r ∧ r * b = a) ↔ b ≠ 0) := by
  by_cases h : b = 0
  · subst h; simp [plainBin]
  · have : b.val ≠ 0 := by rwa [Ne, ZMod.val_eq_zero]
    refine ⟨⟨fun _ => h, fun _ => ⟨_, if_neg this⟩⟩, ⟨fun _ => h, fun _ => ⟨_, if_neg this⟩⟩,
      ⟨fun _ => h, fun _ => ⟨_, if_neg h, inv_mul_cancel_right₀ h a⟩⟩⟩

/-- C80: the square root is the one that is not negative. -/
theorem C80_sqrt [HasSqrt (ZMod p)] (ho : p % 2 = 1) (a : ZMod p) :
    (∀ r, plainSqrt a = .ok r → r * r = a ∧ 0 ≤ r.valMinAbs) ∧
    ((∃ r, plainSqrt a = .ok r) ↔ ∃ y, y * y = a) := by
  have hn : ∀ y : ZMod p, isNegative y = false ↔ 0 ≤ y.valMinAbs := fun y => by
    rw [← shiftedVal_zero_le ho]
    have h1 := shiftedVal_eq ho y
    have h2 := shiftedVal_eq ho (0 : ZMod p)
    rw [ZMod.valMinAbs_zero] at h2
    omega
  unfold plainSqrt
  split
  · rename_i h
    have := HasSqrt.sqrt_none _ h
    refine ⟨fun r h => ?_, fun h => ?_, fun h => absurd h this⟩
    · cases h
    obtain ⟨r, h⟩ := h
    cases h
  · rename_i r h
    have hr := HasSqrt.sqrt_some _ _ h
    refine ⟨?_, fun _ => ⟨r, hr⟩, fun _ => ⟨_, rfl⟩⟩
    rintro _ ⟨⟩
    cases hs : isNegative r with
    | false => exact ⟨by simpa using hr, by simpa using (hn r).mp hs⟩
    | true =>
      refine ⟨by simpa using hr, ?_⟩
      have h0 : r ≠ 0 := by
        rintro rfl
        have := (hn 0).mpr (by simp)
        rw [hs] at this; cases this
      simpa using (hn (-r)).mp (by rw [isNegative_neg ho h0, hs]; rfl)

example : (∃ r, plainSqrt (2 : F7) = .ok r) := (C80_sqrt rfl 2).2.mpr ⟨3, rfl⟩

theorem testBit_sum (x n : Nat) : ((List.range n).map fun i => if x.testBit i then 2 ^ i else 0).sum = x % 2 ^ n := by
  induction n with
  | zero => simp [Nat.mod_one]
  | succ n ih =>
    rw [List.range_succ, List.map_append, List.sum_append, ih, Nat.mod_pow_succ, List.map_singleton, List.sum_singleton,
      Nat.testBit_eq_decide_div_mod_eq]
    rcases Nat.mod_two_eq_zero_or_one (x / 2 ^ n) with h | h <;> simp [h]

/-- C80: `Num2Bits`: zeros and ones, lowest first, of the representative modulo `2^n`. -/
theorem C80_num2bits (a : ZMod p) (n : Nat) :
    (plainNum2bits a n).length = n ∧ (∀ c ∈ plainNum2bits a n, c = 0 ∨ c = 1) ∧
    (((plainNum2bits a n).map ZMod.val).zipIdx.map fun c => c.1 * 2 ^ c.2).sum = a.val % 2 ^ n := by
  have hb : ∀ b : Bool, (bit b : ZMod p).val = if b then 1 else 0 := fun b => by
    cases b
    · simp [bit]
    · simp [bit, ZMod.val_one_eq_one_mod, Nat.mod_eq_of_lt (Fact.out : p.Prime).one_lt]
  refine ⟨by simp [plainNum2bits], ?_, ?_⟩
  · simp only [plainNum2bits, List.mem_map]
    rintro _ ⟨i, -, rfl⟩
    cases a.val.testBit i <;> simp [bit]
  · rw [← testBit_sum]
    congr 1
    apply List.ext_getElem
    · simp [plainNum2bits]
    · intro i h1 h2
      simp only [plainNum2bits, List.map_map, List.getElem_map, List.getElem_zipIdx, Function.comp_apply, hb,
        List.getElem_range, Nat.zero_add]
      cases a.val.testBit i <;> simp

example : plainNum2bits (6 : F7) 4 = [0, 1, 1, 0] := by decide

end Plain

section Rep3

variable {R M J : Type} {p w : Nat} {t : A2BType} {st st₁ : PartyID → Rep3State R}
  [Fact p.Prime] [HasSqrt (ZMod p)] [Sample R (ZMod p)] [Codec M (List (ZMod p))]
  [Sample R (BitVec w)] [UintCodec M w] [Yao.YaoRng R] [Yao.YaoNet M] [Codec J (Share (BitVec w))]
  {x y : PartyID → Rep3Val p} {a b : VmVal (ZMod p) (ZMod p)}

/-! ## C81: binary operations of the Rep3 driver -/

theorem refBin_of {c : RefCfg} {op : BinOp} {r : ZMod p}
    (hs : (a.isArith || b.isArith) = true → supported c op a b = true)
    (hr : plainBin op a.val b.val = .ok r) :
    refBin c op a b = .ok (if (a.isArith || b.isArith) && !publicResult op a b then .arith r else .pub r) := by
  cases a <;> cases b <;> simp_all [VmVal.isArith, refBin, VmVal.val] <;> first | rfl | split <;> simp_all

/-- C81: whatever mix of public and secret operands, the parties obtain a representation of the result of the plain
driver on the values in the clear, for every call that `supported` lists.  Division by a secret value is
`C81_division`.  Not all calls are listed: see `C81_compare_equal` and finding F21. -/
theorem C81_binary_partial (ho : p % 2 = 1) (hw : modBits p + 2 ≤ w) (hH : Yao.HashSeparates (Yao.YaoNet.hash M))
    {op : BinOp} {r : ZMod p} (hx : Holds IsShare x a) (hy : Holds IsShare y b)
    (hs : (a.isArith || b.isArith) = true → supported ⟨true, false⟩ op a b = true)
    (hr : plainBin op a.val b.val = .ok r) (hst : Corr t st) (hst₁ : Corr t st₁) :
    EnsuresTwo (M := M) (J := J) (fun i => (rep3 w).bin op (x i) (y i)) st st₁ (fun z s₀ s₁ =>
      Holds IsShare z (if (a.isArith || b.isArith) && !publicResult op a b then .arith r else .pub r) ∧
      Corr t s₀ ∧ Corr t s₁) := by
  have h := (spec_rep3Bin (M := M) (J := J) ho hw hH hx hy (refBin_of hs hr) hst hst₁).ensures
  rcases h with h | ⟨h, -⟩
  · exact h
  · cases h

/-- C81: the calls that have no further condition. -/
theorem C81_binary_total (ho : p % 2 = 1) (hw : modBits p + 2 ≤ w) (hH : Yao.HashSeparates (Yao.YaoNet.hash M))
    {op : BinOp} (hop : op ∈ [.add, .sub, .mul, .eq, .neq, .bitAnd]) (hx : Holds IsShare x a) (hy : Holds IsShare y b)
    (hst : Corr t st) (hst₁ : Corr t st₁) :
    ∃ r, plainBin op a.val b.val = .ok r ∧
    EnsuresTwo (M := M) (J := J) (fun i => (rep3 w).bin op (x i) (y i)) st st₁ (fun z s₀ s₁ =>
      Holds IsShare z (if a.isArith || b.isArith then .arith r else .pub r) ∧ Corr t s₀ ∧ Corr t s₁) := by
  have key : ∀ op ∈ [BinOp.add, .sub, .mul, .eq, .neq, .bitAnd], supported (p := p) ⟨true, false⟩ op a b = true ∧
      publicResult (p := p) op a b = false ∧ ∃ r, plainBin op a.val b.val = .ok r := by
    intro op hop
    simp only [List.mem_cons, List.not_mem_nil, or_false] at hop
    rcases hop with rfl | rfl | rfl | rfl | rfl | rfl <;> exact ⟨rfl, rfl, _, rfl⟩
  obtain ⟨h1, h2, r, hr⟩ := key op hop
  refine ⟨r, hr, ?_⟩
  have := C81_binary_partial (M := M) (J := J) ho hw hH hx hy (fun _ => h1) hr hst hst₁
  rwa [h2, Bool.not_false, Bool.and_true] at this

/-- C81: a secret divided by a secret.  All parties fail if the common random mask is zero. -/
theorem C81_division {x y : PartyID → Share (ZMod p)} {u v : ZMod p} (hx : IsShare x u) (hy : IsShare y v) (h0 : v ≠ 0)
    (hst : Corr t st) (hst₁ : Corr t st₁) :
    EnsuresTwoOr (randValue (ZMod p) st = 0) (M := M) (J := J)
      (fun i => (rep3 w).bin .div (.arith (x i)) (.arith (y i))) st st₁
      (fun z s₀ s₁ => Holds IsShare z (.arith (u / v)) ∧ Corr t s₀ ∧ Corr t s₁) := by
  have hr : refBin ⟨true, true⟩ .div (.arith u) (.arith v) = .ok (.arith (u / v)) := by
    simp [refBin, supported, publicResult, plainBin, VmVal.val, h0, div_eq_mul_inv]
  exact (Spec₂F.first ((spec_rep3Div_exact (.arith hx) (.arith hy) hr hst).mono fun _ h =>
    allOrNone_imp h And.right fun _ _ h => ⟨h.1, h.2, hst₁⟩)).ensures

/-- C81, negation (finding F19): the comparison of a public value with a secret one that is equal to it gives the
wrong answer: `a < a` and `a > a` are true, `a ≤ a` and `a ≥ a` are false. -/
theorem C81_compare_equal (ho : p % 2 = 1) (hw : modBits p + 2 ≤ w) {y : PartyID → Share (ZMod p)} {u : ZMod p}
    (hy : IsShare y u) (hst : Corr t st) :
    Ensures (M := M) (fun i => rep3Lt w (.pub u) (.arith (y i))) st (fun z _ => Holds IsShare z (.arith 1)) ∧
    Ensures (M := M) (fun i => rep3Le w (.pub u) (.arith (y i))) st (fun z _ => Holds IsShare z (.arith 0)) ∧
    Ensures (M := M) (fun i => rep3Gt w (.pub u) (.arith (y i))) st (fun z _ => Holds IsShare z (.arith 1)) ∧
    Ensures (M := M) (fun i => rep3Ge w (.pub u) (.arith (y i))) st (fun z _ => Holds IsShare z (.arith 0)) := by
  refine ⟨Spec.ensures ((spec_cmpPublic hy hst (f := fun v => bit (decide (v.val ≥ (shiftedVal u).val))) rfl
      fun h h' => (C27_compare_public hw (fun _ => ho) h _ h').2.2.2).mono fun r s h => ?_),
    Spec.ensures ((spec_cmpPublic hy hst (f := fun v => bit (decide (v.val > (shiftedVal u).val))) rfl
      fun h h' => (C27_compare_public hw (fun _ => ho) h _ h').2.2.1).mono fun r s h => ?_),
    Spec.ensures ((spec_cmpPublic hy hst (f := fun v => bit (decide (v.val ≤ (shiftedVal u).val))) rfl
      fun h h' => (C27_compare_public hw (fun _ => ho) h _ h').2.1).mono fun r s h => ?_),
    Spec.ensures ((spec_cmpPublic hy hst (f := fun v => bit (decide (v.val < (shiftedVal u).val))) rfl
      fun h h' => (C27_compare_public hw (fun _ => ho) h _ h').1).mono fun r s h => ?_)⟩ <;>
  simpa [bit] using h.1

/-! ## C82: other operations of the Rep3 driver -/

/-- C82: negation, and the logical operations and the multiplexer on zeros and ones. -/
theorem C82_unary (hx : Holds IsShare x a) (hst : Corr t st) (hst₁ : Corr t st₁) :
    EnsuresTwo (M := M) (J := J) (fun i => (rep3 w).neg (x i)) st st₁ (fun z s₀ s₁ =>
      Holds IsShare z (if a.isArith then .arith (-a.val) else .pub (-a.val)) ∧ Corr t s₀ ∧ Corr t s₁) ∧
    (a.val = 0 ∨ a.val = 1 → EnsuresTwo (M := M) (J := J) (fun i => (rep3 w).boolNot (x i)) st st₁ (fun z s₀ s₁ =>
      Holds IsShare z (if a.isArith then .arith (1 - a.val) else .pub (1 - a.val)) ∧ Corr t s₀ ∧ Corr t s₁)) := by
  constructor
  · have h : (ref p ⟨true, false⟩).neg a = .ok (if a.isArith then .arith (-a.val) else .pub (-a.val)) := by
      cases a <;> rfl
    rcases ((Op.of (c := ⟨true, false⟩) (spec_rep3Neg (M := M) hx h hst)).first (J := J) hst₁).ensures with h | h
    · exact h
    · cases h.1
  · intro hb
    have h : (ref p ⟨true, false⟩).boolNot a = .ok (if a.isArith then .arith (1 - a.val) else .pub (1 - a.val)) := by
      cases a with
      | pub a =>
        have : assertBit a = .ok () := if_pos hb.symm
        simp [ref, plain, this, VmVal.isArith, VmVal.val, bind, Except.bind]
      | arith a => exact if_pos hb
    rcases ((Op.of (c := ⟨true, false⟩) (spec_rep3BoolNot (M := M) hx h hst)).first (J := J) hst₁).ensures with h | h
    · exact h
    · cases h.1

/-- C82: the multiplexer: the first value if the condition is one, the second if it is zero. -/
theorem C82_cmux {cond tr fa : PartyID → Rep3Val p} {c u v : VmVal (ZMod p) (ZMod p)} (hc : Holds IsShare cond c)
    (hu : Holds IsShare tr u) (hv : Holds IsShare fa v) (hb : c.val = 0 ∨ c.val = 1) (hst : Corr t st) (hst₁ : Corr t st₁) :
    EnsuresTwo (M := M) (J := J) (fun i => (rep3 w).cmux (cond i) (tr i) (fa i)) st st₁ (fun z s₀ s₁ =>
      Holds IsShare z (if c.isArith then .arith (if c.val = 1 then u.val else v.val) else if c.val = 1 then u else v) ∧
      Corr t s₀ ∧ Corr t s₁) := by
  have h : refCmux c u v =
      .ok (if c.isArith then .arith (if c.val = 1 then u.val else v.val) else if c.val = 1 then u else v) := by
    cases c with
    | pub c =>
      have : assertBit c = .ok () := if_pos hb.symm
      simp only [refCmux, this, VmVal.isArith, VmVal.val, bind, Except.bind]
      rfl
    | arith c => exact if_pos hb
  rcases ((Op.of (c := ⟨true, false⟩) (spec_rep3Cmux (M := M) hc hu hv h hst)).first (J := J) hst₁).ensures with h | h
  · exact h
  · cases h.1

/-- C82: the square root of a secret square: the root which is not negative.  All parties fail if one of the two
common random masks is zero. -/
theorem C82_sqrt (ho : p % 2 = 1) (hw : modBits p + 2 ≤ w) {x : PartyID → Share (ZMod p)} {u r : ZMod p}
    (hx : IsShare x u) (hr : plainSqrt u = .ok r) (hst : Corr t st) (hst₁ : Corr t st₁) :
    EnsuresTwoOr (randValue (ZMod p) st = 0 ∨ randValue (ZMod p) (afterRand (ZMod p) st) = 0) (M := M) (J := J)
      (fun i => (rep3 w).sqrt (.arith (x i))) st st₁
      (fun z s₀ s₁ => Holds IsShare z (.arith r) ∧ Corr t s₀ ∧ Corr t s₁) := by
  have h : (ref p ⟨true, true⟩).sqrt (.arith u) = .ok (.arith r) := by
    show VmVal.arith <$> plainSqrt u = _
    rw [hr]; rfl
  exact (Spec₂F.first ((spec_rep3Sqrt_exact ho hw (.arith hx) h hst).mono fun _ h =>
    allOrNone_imp h And.right fun _ _ h => ⟨h.1, h.2, hst₁⟩)).ensures

theorem Spec.two {α : Type} {q : PartyID → Rep3M R M α} {Q : (PartyID → α) → (PartyID → Rep3State R) → Prop}
    (h : Spec q st Q) (hst₁ : Corr t st₁) : EnsuresTwo (J := J) (fun i => MPC₂.first (q i)) st st₁ (fun z s₀ s₁ => Q z s₀ ∧ Corr t s₁) :=
  (Spec₂.first (h.mono fun _ _ h => ⟨h, hst₁⟩)).ensures

/-- C82: the accelerator for `Num2Bits` on a secret value: shares of the bits of the plain driver. -/
theorem C82_num2bits (ho : p % 2 = 1) (hw : modBits p + 2 ≤ w) {x : PartyID → Share (ZMod p)} {u : ZMod p}
    (hx : IsShare x u) (n : Nat) (hst : Corr t st) (hst₁ : Corr t st₁) :
    EnsuresTwo (M := M) (J := J) (fun i => (rep3 w).num2bits (.arith (x i)) n) st st₁ (fun z s₀ s₁ =>
      (Cols (Holds IsShare) z ((plainNum2bits u n).map .arith) ∧ Corr t s₀) ∧ Corr t s₁) :=
  Spec.two (spec_rep3Num2bits (c := ⟨true, true⟩) ho hw (.arith hx) rfl hst) hst₁

/-- C82: the accelerator for `AddBits` on any mix of public and secret bits. -/
theorem C82_addbits (ho : p % 2 = 1) (hw : modBits p + 2 ≤ w) {x y : PartyID → List (Rep3Val p)}
    {a b : List (VmVal (ZMod p) (ZMod p))} (hx : Cols (Holds IsShare) x a) (hy : Cols (Holds IsShare) y b)
    {r : List (ZMod p)} {carry : ZMod p} (hr : plainAddbits (a.map VmVal.val) (b.map VmVal.val) = .ok (r, carry))
    (hst : Corr t st) (hst₁ : Corr t st₁) :
    EnsuresTwo (M := M) (J := J) (fun i => (rep3 w).addbits (x i) (y i)) st st₁ (fun z s₀ s₁ =>
      (Cols (Holds IsShare) (fun i => (z i).1) (r.map .arith) ∧ Holds IsShare (fun i => (z i).2) (.arith carry) ∧
        Corr t s₀) ∧ Corr t s₁) := by
  have h : (ref p ⟨true, true⟩).addbits a b = .ok (r.map .arith, .arith carry) := by
    simp [ref, hr, bind, Except.bind]
  exact Spec.two (spec_rep3Addbits ho hw hx hy h hst) hst₁

/-- C82: opening, promotion to a share, zero tests, indices and logs. -/
theorem C82_reveal (ho : p % 2 = 1) (hw : modBits p + 2 ≤ w) (hx : Holds IsShare x a) (hst : Corr t st) (hst₁ : Corr t st₁) :
    EnsuresTwo (M := M) (J := J) (fun i => (rep3 w).openV (x i)) st st₁ (fun z s₀ s₁ =>
      (z = (fun _ => a.val) ∧ Corr t s₀) ∧ Corr t s₁) ∧
    EnsuresTwo (M := M) (J := J) (fun i => (rep3 w).toShare (x i)) st st₁ (fun z s₀ s₁ =>
      (IsShare z a.val ∧ Corr t s₀) ∧ Corr t s₁) ∧
    EnsuresTwo (M := M) (J := J) (fun i => (rep3 w).isZero (x i) true) st st₁ (fun z s₀ s₁ =>
      (z = (fun _ => decide (a.val = 0)) ∧ Corr t s₀) ∧ Corr t s₁) ∧
    EnsuresTwo (M := M) (J := J) (fun i => (rep3 w).isShared (x i)) st st₁ (fun z s₀ s₁ =>
      z = (fun _ => a.isArith) ∧ s₀ = st ∧ s₁ = st₁) ∧
    (a.isArith = false → a.val.val < 2 ^ 64 →
      EnsuresTwo (M := M) (J := J) (fun i => (rep3 w).toIndex (x i)) st st₁ (fun z s₀ s₁ =>
        (z = (fun _ => a.val.val) ∧ Corr t s₀) ∧ Corr t s₁)) ∧
    (∀ leaky, EnsuresTwo (M := M) (J := J) (fun i => (rep3 w).log (x i) leaky) st st₁ (fun z s₀ s₁ =>
      (z = (fun _ => if a.isArith && !leaky then none else some a.val) ∧ Corr t s₀) ∧ Corr t s₁)) := by
  refine ⟨Spec.two (spec_rep3Open hx hst) hst₁, Spec.two (spec_rep3ToShare hx hst) hst₁,
    Spec.two (spec_rep3IsZero (c := ⟨true, true⟩) ho hw hx ?_ hst) hst₁, ?_, fun h1 h2 => ?_, fun leaky => ?_⟩
  · cases a <;> rfl
  · refine (Spec₂.pure ?_).ensures
    exact ⟨funext (isArith_of_holds hx), rfl, rfl⟩
  · refine Spec.two (spec_rep3ToIndex (c := ⟨true, true⟩) hx ?_ hst) hst₁
    cases a with
    | pub a => exact if_pos h2
    | arith a => cases h1
  · refine Spec.two (spec_rep3Log (c := ⟨true, true⟩) hx leaky ?_ hst) hst₁
    cases a <;> cases leaky <;> rfl

end Rep3

/-! ## Instances -/

namespace VmDemo

/-- Results of closures. -/
inductive Res where
  | b (w : Nat) (x : Share (BitVec w))

instance {w : Nat} : Codec Res (Share (BitVec w)) :=
  ⟨.b w, fun | .b w' x => if h : w' = w then some (h ▸ x) else none, fun _ => by simp⟩

theorem holds_three : Holds IsShare (fun i => (.arith (three7 i) : Rep3Val 7)) (.arith 3) := .arith isShare_three7
theorem holds_five : Holds IsShare (fun i => (.arith (five7 i) : Rep3Val 7)) (.arith 5) := .arith isShare_five7
theorem holds_pub (c : F7) : Holds IsShare (fun _ => (.pub c : Rep3Val 7)) (.pub c) := rfl

/-- `3 & 5 = 1` on two secrets; `5 < 3` since five is `-2`; `2 << 3 = 2`, the exponent secret; `5 \ 3 = 1`. -/
example (t : A2BType) : EnsuresTwo (M := Msg) (J := Res) (fun i => (rep3 8).bin .bitAnd (.arith (three7 i)) (.arith (five7 i)))
    (statesOf t) (statesOf t) (fun z s₀ s₁ => Holds IsShare z (.arith 1) ∧ Corr t s₀ ∧ Corr t s₁) :=
  C81_binary_partial rfl (by decide) demo_hash holds_three holds_five (fun _ => rfl) rfl (corr_statesOf t) (corr_statesOf t)

example (t : A2BType) : EnsuresTwo (M := Msg) (J := Res) (fun i => (rep3 8).bin .lt (.arith (five7 i)) (.pub 3))
    (statesOf t) (statesOf t) (fun z s₀ s₁ => Holds IsShare z (.arith 1) ∧ Corr t s₀ ∧ Corr t s₁) :=
  C81_binary_partial rfl (by decide) demo_hash holds_five (holds_pub 3) (fun _ => rfl)
    ((C80_compare rfl 5 3).1.trans (by decide)) (corr_statesOf t) (corr_statesOf t)

example (t : A2BType) : EnsuresTwo (M := Msg) (J := Res) (fun i => (rep3 8).bin .shiftL (.pub 2) (.arith (three7 i)))
    (statesOf t) (statesOf t) (fun z s₀ s₁ => Holds IsShare z (.arith 2) ∧ Corr t s₀ ∧ Corr t s₁) :=
  C81_binary_partial rfl (by decide) demo_hash (holds_pub 2) holds_three (fun _ => by decide) (by decide) (corr_statesOf t)
    (corr_statesOf t)

example (t : A2BType) : EnsuresTwo (M := Msg) (J := Res) (fun i => (rep3 8).bin .intDiv (.arith (five7 i)) (.arith (three7 i)))
    (statesOf t) (statesOf t) (fun z s₀ s₁ => Holds IsShare z (.arith 1) ∧ Corr t s₀ ∧ Corr t s₁) :=
  C81_binary_partial rfl (by decide) demo_hash holds_five holds_three (fun _ => by decide) (by decide) (corr_statesOf t)
    (corr_statesOf t)

example (t : A2BType) : Ensures (M := Msg) (fun i => rep3Lt 8 (.pub 3) (.arith (three7 i))) (statesOf t)
    (fun z _ => Holds IsShare z (.arith 1)) :=
  (C81_compare_equal rfl (by decide) isShare_three7 (corr_statesOf t)).1

example (t : A2BType) : EnsuresTwoOr (randValue F7 (statesOf t) = 0) (M := Msg) (J := Res)
    (fun i => (rep3 8).bin .div (.arith (five7 i)) (.arith (three7 i))) (statesOf t) (statesOf t)
    (fun z s₀ s₁ => Holds IsShare z (.arith (5 / 3)) ∧ Corr t s₀ ∧ Corr t s₁) :=
  C81_division isShare_five7 isShare_three7 (by decide) (corr_statesOf t) (corr_statesOf t)

example (t : A2BType) : EnsuresTwo (M := Msg) (J := Res) (fun i => (rep3 8).num2bits (.arith (five7 i)) 4)
    (statesOf t) (statesOf t) (fun z s₀ s₁ =>
      (Cols (Holds IsShare) z [.arith 1, .arith 0, .arith 1, .arith 0] ∧ Corr t s₀) ∧ Corr t s₁) :=
  C82_num2bits rfl (by decide) isShare_five7 4 (corr_statesOf t) (corr_statesOf t)

end VmDemo

end Verif.Props
