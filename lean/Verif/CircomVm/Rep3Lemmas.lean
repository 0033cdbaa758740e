import Verif.CircomVm.Rep3
import Verif.CircomVm.Sim
import Verif.Net.TwoE
import Verif.Props.Conversion
import Verif.Props.Arith
import Verif.Yao.BlueprintOps

/-!
# The operations of the Rep3 driver
-/

namespace Verif.CircomVm

open Rep3 PartyID

variable {R M : Type} {p w : Nat} {ty : A2BType} {st : PartyID → Rep3State R} {c : RefCfg}
  {x y : PartyID → Rep3Val p} {a b z : RefVal p}

section Basic

theorem spec_liftPub {e : Except Err (ZMod p)} {v : ZMod p} (h : e = .ok v) (hst : Corr ty st) :
    Spec (M := M) (fun _ => liftPub e) st (fun r st' => Holds IsShare r (.pub v) ∧ Corr ty st') := by
  subst h
  exact Spec.pure ⟨rfl, hst⟩

/-- A call that returns a share. -/
theorem spec_arith {q : PartyID → Rep3M R M (Share (ZMod p))} {v u : ZMod p} (hv : v = u)
    (h : Spec q st (fun r st' => IsShare r v ∧ Corr ty st')) :
    Spec (fun i => q i >>= fun r => Pure.pure (VmVal.arith r : Rep3Val p)) st
      (fun r st' => Holds IsShare r (.arith u) ∧ Corr ty st') := by
  subst hv
  refine Spec.bind h ?_
  rintro r st' ⟨hr, hst'⟩
  exact Spec.pure ⟨.arith hr, hst'⟩

/-- A local computation that uses the party id. -/
theorem spec_withId {f : PartyID → PartyID → Share (ZMod p)} {v u : ZMod p} (hv : v = u) (hst : Corr ty st)
    (h : IsShare (fun i => f i i) v) :
    Spec (M := M) (fun i => stateId >>= fun id => Pure.pure (VmVal.arith (f i id) : Rep3Val p)) st
      (fun r st' => Holds IsShare r (.arith u) ∧ Corr ty st') := by
  subst hv
  refine Spec.bind (spec_stateId hst) ?_
  rintro _ _ ⟨rfl, rfl⟩
  exact Spec.pure ⟨.arith h, hst⟩

theorem spec_rep3Add (hx : Holds IsShare x a) (hy : Holds IsShare y b) (h : refBin c .add a b = .ok z) (hst : Corr ty st) :
    Spec (M := M) (fun i => rep3Add (x i) (y i)) st (fun r st' => Holds IsShare r z ∧ Corr ty st') := by
  refine refBin_elim (C := fun x y z => Spec (M := M) (fun i => rep3Add (x i) (y i)) st
    (fun r st' => Holds IsShare r z ∧ Corr ty st')) hx hy h ?_ ?_ ?_ ?_
  · intro u v r hr; exact spec_liftPub hr hst
  · intro u v t r ht _ hr
    exact spec_withId ((add_comm _ _).trans (ok_inj.mp hr)) hst (ht.addPublic u)
  · intro u v s r hs _ hr
    exact spec_withId (ok_inj.mp hr) hst (hs.addPublic v)
  · intro u v s t r hs ht _ hr
    obtain rfl := ok_inj.mp hr
    exact Spec.pure ⟨.arith (hs.add ht), hst⟩

theorem spec_rep3Sub (hx : Holds IsShare x a) (hy : Holds IsShare y b) (h : refBin c .sub a b = .ok z) (hst : Corr ty st) :
    Spec (M := M) (fun i => rep3Sub (x i) (y i)) st (fun r st' => Holds IsShare r z ∧ Corr ty st') := by
  refine refBin_elim (C := fun x y z => Spec (M := M) (fun i => rep3Sub (x i) (y i)) st
    (fun r st' => Holds IsShare r z ∧ Corr ty st')) hx hy h ?_ ?_ ?_ ?_
  · intro u v r hr; exact spec_liftPub hr hst
  · intro u v t r ht _ hr
    exact spec_withId (ok_inj.mp hr) hst (Props.C06_linear ht ht u).2.2.2.2.2.2.1
  · intro u v s r hs _ hr
    exact spec_withId (ok_inj.mp hr) hst (Props.C06_linear hs hs v).2.2.2.2.2.1
  · intro u v s t r hs ht _ hr
    obtain rfl := ok_inj.mp hr
    exact Spec.pure ⟨.arith (hs.sub ht), hst⟩

variable [Sample R (ZMod p)] [Codec M (List (ZMod p))]

theorem spec_rep3Mul (hx : Holds IsShare x a) (hy : Holds IsShare y b) (h : refBin c .mul a b = .ok z) (hst : Corr ty st) :
    Spec (M := M) (fun i => rep3Mul (x i) (y i)) st (fun r st' => Holds IsShare r z ∧ Corr ty st') := by
  refine refBin_elim (C := fun x y z => Spec (M := M) (fun i => rep3Mul (x i) (y i)) st
    (fun r st' => Holds IsShare r z ∧ Corr ty st')) hx hy h ?_ ?_ ?_ ?_
  · intro u v r hr; exact spec_liftPub hr hst
  · intro u v t r ht _ hr
    obtain rfl := ok_inj.mp hr
    refine Spec.pure ⟨.arith ?_, hst⟩
    rw [mul_comm]; exact ht.scale u
  · intro u v s r hs _ hr
    obtain rfl := ok_inj.mp hr
    exact Spec.pure ⟨.arith (hs.scale v), hst⟩
  · intro u v s t r hs ht _ hr
    exact spec_arith (ok_inj.mp hr) (spec_mul hs ht hst)

theorem isBit_cases {a : ZMod p} (h : IsBit a) : a * a = a := by
  rcases h with rfl | rfl <;> simp

theorem toUsize_bit [Fact p.Prime] {a : ZMod p} (h : IsBit a) : toUsize a = .ok (if a = 1 then 1 else 0) := by
  rcases h with rfl | rfl
  · simp [toUsize]
  · have : (1 : ZMod p).val = 1 := by
      rw [ZMod.val_one_eq_one_mod, Nat.mod_eq_of_lt (Fact.out : p.Prime).one_lt]
    simp [toUsize, this]

theorem plain_boolAnd [Fact p.Prime] {a b r : ZMod p} (ha : IsBit a) (hb : IsBit b)
    (h : plainBin .boolAnd a b = .ok r) : a * b = r := by
  simp only [plainBin, toUsize_bit ha, toUsize_bit hb] at h
  rcases ha with rfl | rfl <;> rcases hb with rfl | rfl <;>
    simp [bind, Except.bind, bit] at h <;> simp [← h]

theorem plain_boolOr [Fact p.Prime] {a b r : ZMod p} (ha : IsBit a) (hb : IsBit b)
    (h : plainBin .boolOr a b = .ok r) : a + b - a * b = r := by
  simp only [plainBin, toUsize_bit ha, toUsize_bit hb] at h
  rcases ha with rfl | rfl <;> rcases hb with rfl | rfl <;>
    simp [bind, Except.bind, bit] at h <;> simp [← h]

theorem bits_of_supported {op : BinOp} (ho : op = .boolAnd ∨ op = .boolOr) (h : supported c op a b = true) :
    IsBit a.val ∧ IsBit b.val := by
  rcases ho with rfl | rfl <;>
    exact ⟨of_decide_eq_true (Bool.and_eq_true_iff.mp h).1, of_decide_eq_true (Bool.and_eq_true_iff.mp h).2⟩

theorem spec_rep3BoolAnd [Fact p.Prime] (hx : Holds IsShare x a) (hy : Holds IsShare y b)
    (h : refBin c .boolAnd a b = .ok z) (hst : Corr ty st) :
    Spec (M := M) (fun i => rep3BoolAnd (x i) (y i)) st (fun r st' => Holds IsShare r z ∧ Corr ty st') := by
  refine refBin_elim (C := fun x y z => Spec (M := M) (fun i => rep3BoolAnd (x i) (y i)) st
    (fun r st' => Holds IsShare r z ∧ Corr ty st')) hx hy h ?_ ?_ ?_ ?_
  · intro u v r hr; exact spec_liftPub hr hst
  · intro u v t r ht hc hr
    replace hc := bits_of_supported (.inl rfl) hc
    obtain rfl := plain_boolAnd hc.1 hc.2 hr
    refine Spec.pure ⟨.arith ?_, hst⟩
    rw [mul_comm]; exact ht.scale u
  · intro u v s r hs hc hr
    replace hc := bits_of_supported (.inl rfl) hc
    obtain rfl := plain_boolAnd hc.1 hc.2 hr
    exact Spec.pure ⟨.arith (hs.scale v), hst⟩
  · intro u v s t r hs ht hc hr
    replace hc := bits_of_supported (.inl rfl) hc
    exact spec_arith (plain_boolAnd hc.1 hc.2 hr) (spec_mul hs ht hst)

theorem spec_rep3BoolOr [Fact p.Prime] (hx : Holds IsShare x a) (hy : Holds IsShare y b)
    (h : refBin c .boolOr a b = .ok z) (hst : Corr ty st) :
    Spec (M := M) (fun i => rep3BoolOr (x i) (y i)) st (fun r st' => Holds IsShare r z ∧ Corr ty st') := by
  refine refBin_elim (C := fun x y z => Spec (M := M) (fun i => rep3BoolOr (x i) (y i)) st
    (fun r st' => Holds IsShare r z ∧ Corr ty st')) hx hy h ?_ ?_ ?_ ?_
  · intro u v r hr; exact spec_liftPub hr hst
  · intro u v t r ht hc hr
    replace hc := bits_of_supported (.inr rfl) hc
    refine spec_withId ?_ hst ((ht.addPublic u).sub (ht.scale u))
    rw [add_comm, mul_comm]; exact plain_boolOr hc.1 hc.2 hr
  · intro u v s r hs hc hr
    replace hc := bits_of_supported (.inr rfl) hc
    exact spec_withId (plain_boolOr hc.1 hc.2 hr) hst ((hs.addPublic v).sub (hs.scale v))
  · intro u v s t r hs ht hc hr
    replace hc := bits_of_supported (.inr rfl) hc
    refine Spec.bind (spec_mul hs ht hst) ?_
    rintro m st' ⟨hm, hst'⟩
    obtain rfl := plain_boolOr hc.1 hc.2 hr
    exact Spec.pure ⟨.arith ((hs.add ht).sub hm), hst'⟩

theorem spec_rep3BoolNot [Fact p.Prime] [HasSqrt (ZMod p)] (hx : Holds IsShare x a) (h : (ref p c).boolNot a = .ok z)
    (hst : Corr ty st) :
    Spec (M := M) (fun i => rep3BoolNot (x i)) st (fun r st' => Holds IsShare r z ∧ Corr ty st') := by
  cases a with
  | pub a =>
    cases hx
    obtain ⟨v, hv, rfl⟩ := map_ok (h : VmVal.pub <$> (plain p).boolNot a = .ok z)
    exact spec_liftPub hv hst
  | arith a =>
    obtain ⟨s, rfl, hs⟩ := hx
    have h' : (if IsBit a then .ok (.arith (1 - a)) else refuse) = Except.ok z := h
    split at h'
    · obtain rfl := ok_inj.mp h'
      exact spec_withId (neg_add_eq_sub a 1) hst (hs.neg.addPublic 1)
    · cases h'

theorem spec_rep3Cmux (hcond : Holds IsShare x a) {u v : PartyID → Rep3Val p} {t f : RefVal p} (ht : Holds IsShare u t)
    (hf : Holds IsShare v f) (h : refCmux a t f = .ok z) (hst : Corr ty st) :
    Spec (M := M) (fun i => rep3Cmux (x i) (u i) (v i)) st (fun r st' => Holds IsShare r z ∧ Corr ty st') := by
  cases a with
  | pub a =>
    cases hcond
    obtain ⟨_, h1, h2⟩ := bind_ok (h : assertBit a >>= (fun _ => .ok (if a = 1 then t else f)) = Except.ok z)
    obtain rfl := ok_inj.mp h2
    simp only [rep3Cmux, h1, lift]
    refine Spec.pure ⟨?_, hst⟩
    split <;> assumption
  | arith a =>
    obtain ⟨s, rfl, hs⟩ := hcond
    have h' : (if IsBit a then .ok (.arith (if a = 1 then t.val else f.val)) else refuse) = Except.ok z := h
    split at h'
    case isFalse => cases h'
    rename_i hb
    obtain rfl := ok_inj.mp h'
    obtain ⟨d, hd, hdv⟩ : ∃ d, refBin ⟨true, true⟩ .sub t f = .ok d ∧ d.val = t.val - f.val := by
      cases t <;> cases f <;> exact ⟨_, rfl, rfl⟩
    refine Spec.bind (spec_rep3Sub ht hf hd hst) ?_
    rintro q st₁ ⟨hq, hst₁⟩
    obtain ⟨e, he, hev⟩ : ∃ e, refBin ⟨true, true⟩ .mul (.arith a) d = .ok (.arith e) ∧ e = a * d.val := by
      cases d <;> exact ⟨_, rfl, rfl⟩
    refine Spec.bind (spec_rep3Mul (Holds.arith hs) hq he hst₁) ?_
    rintro q st₂ ⟨hq, hst₂⟩
    have hr : refBin ⟨true, true⟩ .add f (.arith e) = .ok (.arith (if a = 1 then t.val else f.val)) := by
      have : f.val + e = if a = 1 then t.val else f.val := by
        rw [hev, hdv]
        rcases hb with rfl | rfl
        · by_cases h01 : (0 : ZMod p) = 1
          · have : ∀ q : ZMod p, q = 0 := fun q => by rw [← mul_one q, ← h01, mul_zero]
            exact (this _).trans (this _).symm
          · simp [h01]
        · simp
      rw [← this]
      cases f <;> rfl
    exact spec_rep3Add hf hq hr hst₂

theorem spec_rep3Pow (hx : Holds IsShare x a) (hy : Holds IsShare y b) (h : refBin c .pow a b = .ok z) (hst : Corr ty st) :
    Spec (M := M) (fun i => rep3Pow (x i) (y i)) st (fun r st' => Holds IsShare r z ∧ Corr ty st') := by
  refine refBin_elim (C := fun x y z => Spec (M := M) (fun i => rep3Pow (x i) (y i)) st
    (fun r st' => Holds IsShare r z ∧ Corr ty st')) hx hy h ?_ ?_ ?_ ?_
  · intro u v r hr; exact spec_liftPub hr hst
  · intro u v t r ht hc hr; simp [supported] at hc
  · intro u v s r hs _ hr
    obtain rfl := ok_inj.mp hr
    by_cases h0 : v = 0
    · simp only [rep3Pow, publicResult, h0, decide_true, if_true]
      exact Spec.pure ⟨by simp [Holds], hst⟩
    · simp only [rep3Pow, publicResult, h0, decide_false, if_false]
      exact spec_arith rfl (spec_powPublic _ hs hst)
  · intro u v s t r hs ht hc hr; simp [supported] at hc

end Basic

/-! ### The order -/

section Order

variable [Fact p.Prime]

theorem negativeOne_val (ho : p % 2 = 1) : (negativeOne p).val = (p + 1) / 2 := by
  have h1 : 2 ≤ p := (Fact.out : p.Prime).two_le
  have h2 : (2 : ZMod p) ≠ 0 := by
    intro h
    have := (ZMod.natCast_eq_zero_iff 2 p).mp (by exact_mod_cast h)
    have := Nat.le_of_dvd (by decide) this
    omega
  have h3 : negativeOne p = (((p + 1) / 2 : Nat) : ZMod p) := by
    apply mul_left_cancel₀ h2
    rw [negativeOne, mul_inv_cancel₀ h2]
    have : 2 * ((p + 1) / 2) = p + 1 := by omega
    have h := congrArg (Nat.cast : Nat → ZMod p) this
    push_cast at h
    rw [h]
    simp
  rw [h3, ZMod.val_natCast, Nat.mod_eq_of_lt (by omega)]

theorem shiftedVal_val (ho : p % 2 = 1) (z : ZMod p) :
    (shiftedVal z).val = if z.val < (p + 1) / 2 then z.val + (p - 1) / 2 else z.val - (p + 1) / 2 := by
  have h1 : 2 ≤ p := (Fact.out : p.Prime).two_le
  have hz := ZMod.val_lt z
  have hq : (p + 1) / 2 = (p - 1) / 2 + 1 := by omega
  have hq' : 2 * ((p - 1) / 2) + 1 = p := by omega
  split
  · have h : shiftedVal z = ((z.val + (p - 1) / 2 : Nat) : ZMod p) := by
      rw [shiftedVal, sub_eq_iff_eq_add, ← ZMod.natCast_zmod_val (negativeOne p), negativeOne_val ho, ← Nat.cast_add]
      have : z.val + (p - 1) / 2 + (p + 1) / 2 = z.val + p := by omega
      rw [this]
      simp
    rw [h, ZMod.val_natCast, Nat.mod_eq_of_lt (by omega)]
  · rw [shiftedVal, ZMod.val_sub (by rw [negativeOne_val ho]; omega), negativeOne_val ho]

theorem shiftedVal_inj {a b : ZMod p} : (shiftedVal a).val = (shiftedVal b).val ↔ a = b := by
  constructor
  · intro h
    have := ZMod.val_injective p h
    simpa [shiftedVal] using this
  · rintro rfl; rfl

theorem shiftedVal_zero_le (ho : p % 2 = 1) (z : ZMod p) :
    (shiftedVal z).val ≥ (shiftedVal (0 : ZMod p)).val ↔ isNegative z = false := by
  have h1 : 2 ≤ p := (Fact.out : p.Prime).two_le
  have hz := ZMod.val_lt z
  have hq : (p + 1) / 2 = (p - 1) / 2 + 1 := by omega
  have hq' : 2 * ((p - 1) / 2) + 1 = p := by omega
  have e0 : (shiftedVal (0 : ZMod p)).val = (p - 1) / 2 := by
    rw [shiftedVal_val ho, ZMod.val_zero, if_pos (by omega), Nat.zero_add]
  rw [e0, shiftedVal_val ho, isNegative, negativeOne_val ho]
  simp only [decide_eq_false_iff_not]
  split <;> omega

theorem isNegative_neg (ho : p % 2 = 1) {z : ZMod p} (h0 : z ≠ 0) : isNegative (-z) = !isNegative z := by
  have h1 : 2 ≤ p := (Fact.out : p.Prime).two_le
  have hz := ZMod.val_lt z
  have hz0 : z.val ≠ 0 := by rwa [Ne, ZMod.val_eq_zero]
  have hn : (-z).val = p - z.val := by
    rw [ZMod.neg_val, if_neg h0]
  simp only [isNegative, negativeOne_val ho, hn]
  rw [← decide_not, decide_eq_decide]
  omega

end Order

theorem two_pow_log2_of_isPowerOfTwo {v : Nat} (h : isPowerOfTwo v = true) : 2 ^ log2 v = v := by
  simp only [isPowerOfTwo, Bool.and_eq_true, decide_eq_true_eq] at h
  obtain ⟨k, rfl⟩ := (Nat.and_sub_one_eq_zero_iff_isPowerOfTwo h.1).mp h.2
  rw [log2, Nat.log2_two_pow]

/-- What the operations of the driver establish. -/
abbrev Op (c : RefCfg) (ty : A2BType) (q : PartyID → Rep3M R M (Rep3Val p)) (st : PartyID → Rep3State R) (z : RefVal p) : Prop :=
  SpecE q st (AllOrNone (c.randomized = true) fun r st' => Holds IsShare r z ∧ Corr ty st')

theorem Op.of {q : PartyID → Rep3M R M (Rep3Val p)} (h : Spec q st fun r st' => Holds IsShare r z ∧ Corr ty st') :
    Op c ty q st z := h.specE.mono fun _ ⟨v, st', h1, h2⟩ => .inr ⟨v, st', h1, h2⟩

theorem allOrNone_imp {ι S α : Type} {bad bad' : Prop} {Q Q' : (ι → α) → (ι → S) → Prop} {r : ι → Except Err (α × S)}
    (h : AllOrNone bad Q r) (hb : bad → bad') (hq : ∀ v s, Q v s → Q' v s) : AllOrNone bad' Q' r := by
  rcases h with ⟨e, h1, h2⟩ | ⟨v, s, h1, h2⟩
  · exact .inl ⟨e, h1, hb h2⟩
  · exact .inr ⟨v, s, h1, hq _ _ h2⟩

theorem specE_ok {ι S M α : Type} [DecidableEq ι] {bad : Prop} {q : ι → MPC ι S M Err α} {st : ι → S} {Q : (ι → α) → (ι → S) → Prop}
    (h : Spec q st Q) : SpecE q st (AllOrNone bad Q) :=
  h.specE.mono fun _ ⟨v, st', h1, h2⟩ => .inr ⟨v, st', h1, h2⟩

theorem spec_rep3Div_exact [Fact p.Prime] [Sample R (ZMod p)] [Codec M (List (ZMod p))]
    (hx : Holds IsShare x a) (hy : Holds IsShare y b) (h : refBin c .div a b = .ok z) (hst : Corr ty st) :
    SpecE (M := M) (fun i => rep3Div (x i) (y i)) st
      (AllOrNone (c.randomized = true ∧ randValue (ZMod p) st = 0) fun r st' => Holds IsShare r z ∧ Corr ty st') := by
  refine refBin_elim (C := fun x y z => SpecE (M := M) (fun i => rep3Div (x i) (y i)) st
    (AllOrNone (c.randomized = true ∧ randValue (ZMod p) st = 0) fun r st' => Holds IsShare r z ∧ Corr ty st'))
    hx hy h ?_ ?_ ?_ ?_
  · intro u v r hr; exact specE_ok (spec_liftPub hr hst)
  · intro u v t r ht hc hr
    simp only [supported, Bool.and_eq_true, decide_eq_true_eq] at hc
    simp only [plainBin, if_neg hc.2] at hr
    obtain rfl := ok_inj.mp hr
    refine SpecE.bindAll (spec_inv ht hst) ?_ ?_
    · rintro q st' ⟨h0, hq, hst'⟩
      refine specE_ok (Spec.pure ⟨.arith ?_, hst'⟩)
      rw [mul_comm]; exact hq.scale u
    · rintro e h0
      exact .inl ⟨e, fun _ => rfl, hc.1, (mul_eq_zero.mp h0).resolve_left hc.2⟩
  · intro u v s r hs hc hr
    simp only [supported, decide_eq_true_eq] at hc
    simp only [plainBin, if_neg hc] at hr
    obtain rfl := ok_inj.mp hr
    simp only [rep3Div, if_neg hc]
    exact specE_ok (Spec.pure ⟨.arith (hs.scale _), hst⟩)
  · intro u v s t r hs ht hc hr
    simp only [supported, Bool.and_eq_true, decide_eq_true_eq] at hc
    simp only [plainBin, if_neg hc.2] at hr
    refine SpecE.bindAll (spec_inv ht hst) ?_ ?_
    · rintro q st' ⟨h0, hq, hst'⟩
      exact specE_ok (spec_arith (ok_inj.mp hr) (spec_mul hs hq hst'))
    · rintro e h0
      exact .inl ⟨e, fun _ => rfl, hc.1, (mul_eq_zero.mp h0).resolve_left hc.2⟩

theorem spec_rep3Div [Fact p.Prime] [Sample R (ZMod p)] [Codec M (List (ZMod p))]
    (hx : Holds IsShare x a) (hy : Holds IsShare y b) (h : refBin c .div a b = .ok z) (hst : Corr ty st) :
    Op (M := M) c ty (fun i => rep3Div (x i) (y i)) st z :=
  (spec_rep3Div_exact hx hy h hst).mono fun _ h => allOrNone_imp h And.left fun _ _ => id

section Yao

variable [Fact p.Prime] [Sample R (ZMod p)] [Codec M (List (ZMod p))]
  [Sample R (BitVec w)] [UintCodec M w] [Yao.YaoRng R] [Yao.YaoNet M]

theorem val_eq_zero_iff {v : ZMod p} : v.val = 0 ↔ v = 0 := ZMod.val_eq_zero v

theorem spec_rep3IntDiv (ho : p % 2 = 1) (hw : modBits p ≤ w) (hH : Yao.HashSeparates (Yao.YaoNet.hash M))
    (hx : Holds IsShare x a) (hy : Holds IsShare y b) (h : refBin c .intDiv a b = .ok z) (hst : Corr ty st) :
    Spec (M := M) (fun i => rep3IntDiv w (x i) (y i)) st (fun r st' => Holds IsShare r z ∧ Corr ty st') := by
  have step : ∀ {u v r : ZMod p}, plainBin .intDiv u v = .ok r → v ≠ 0 ∧ ((u.val / v.val : Nat) : ZMod p) = r := by
    intro u v r hr
    simp only [plainBin] at hr
    split at hr
    · cases hr
    · exact ⟨fun h => by simp [h] at *, ok_inj.mp hr⟩
  refine refBin_elim (C := fun x y z => Spec (M := M) (fun i => rep3IntDiv w (x i) (y i)) st
    (fun r st' => Holds IsShare r z ∧ Corr ty st')) hx hy h ?_ ?_ ?_ ?_
  · intro u v r hr; exact spec_liftPub hr hst
  · intro u v t r ht hc hr
    exact spec_arith (step hr).2 (Yao.Gc.spec_fieldIntDivByShared ho hw hH ht (step hr).1 hst)
  · intro u v s r hs hc hr
    by_cases h2 : isPowerOfTwo v.val = true
    · simp only [rep3IntDiv, h2, if_true]
      have := Yao.Gc.spec_fieldIntDivPower2 (M := M) ho hw hH hs (log2 v.val) hst
      rw [two_pow_log2_of_isPowerOfTwo h2] at this
      exact spec_arith (step hr).2 this
    · simp only [rep3IntDiv, h2]
      exact spec_arith (step hr).2 (Yao.Gc.spec_fieldIntDivByPublic ho hw hH hs (step hr).1 hst)
  · intro u v s t r hs ht hc hr
    exact spec_arith (step hr).2 (Yao.Gc.spec_fieldIntDiv ho hw hH hs ht (step hr).1 hst)

theorem sub_div_mul (u v : ZMod p) : u - ((u.val / v.val : Nat) : ZMod p) * v = ((u.val % v.val : Nat) : ZMod p) := by
  have h := congrArg (Nat.cast : Nat → ZMod p) (Nat.div_add_mod u.val v.val)
  push_cast at h
  rw [ZMod.natCast_zmod_val, ZMod.natCast_zmod_val] at h
  rw [sub_eq_iff_eq_add]
  exact h.symm.trans (by ring)

theorem spec_rep3Mod (ho : p % 2 = 1) (hw : modBits p ≤ w) (hH : Yao.HashSeparates (Yao.YaoNet.hash M))
    (hx : Holds IsShare x a) (hy : Holds IsShare y b) (h : refBin c .mod a b = .ok z) (hst : Corr ty st) :
    Spec (M := M) (fun i => rep3Mod w (x i) (y i)) st (fun r st' => Holds IsShare r z ∧ Corr ty st') := by
  have step : ∀ {u v r : ZMod p}, plainBin .mod u v = .ok r → v ≠ 0 ∧ ((u.val % v.val : Nat) : ZMod p) = r := by
    intro u v r hr
    simp only [plainBin] at hr
    split at hr
    · cases hr
    · exact ⟨fun h => by simp [h] at *, ok_inj.mp hr⟩
  refine refBin_elim (C := fun x y z => Spec (M := M) (fun i => rep3Mod w (x i) (y i)) st
    (fun r st' => Holds IsShare r z ∧ Corr ty st')) hx hy h ?_ ?_ ?_ ?_
  · intro u v r hr; exact spec_liftPub hr hst
  · intro u v t r ht hc hr
    obtain ⟨h0, rfl⟩ := step hr
    refine Spec.bind (Yao.Gc.spec_fieldIntDivByShared ho hw hH (v := u) ht h0 hst) ?_
    rintro d st₁ ⟨hd, hst₁⟩
    refine Spec.bind (spec_mul hd ht hst₁) ?_
    rintro m st₂ ⟨hm, hst₂⟩
    exact spec_withId (sub_div_mul u v) hst₂ (Props.C06_linear hm hm u).2.2.2.2.2.2.1
  · intro u v s r hs hc hr
    obtain ⟨h0, rfl⟩ := step hr
    simp only [supported, Bool.and_eq_true, decide_eq_true_eq] at hc
    by_cases h2 : isPowerOfTwo v.val = true
    · simp only [rep3Mod, h2, if_true]
      have e := two_pow_log2_of_isPowerOfTwo h2
      have h1 : 0 < log2 v.val := by
        rcases Nat.eq_zero_or_pos (log2 v.val) with h | h
        · rw [h] at e
          exfalso; apply hc.2
          have := congrArg (Nat.cast : Nat → ZMod p) e
          rw [ZMod.natCast_zmod_val] at this
          simpa using this.symm
        · exact h
      have h3 : log2 v.val ≤ modBits p := by
        have : 2 ^ log2 v.val < 2 ^ modBits p := by
          rw [e]; exact (ZMod.val_lt v).trans lt_two_pow_modBits
        exact (Nat.pow_lt_pow_iff_right (by decide)).mp this |>.le
      have := Yao.Gc.spec_fieldModPower2 (M := M) ho hw hH hs h1 h3 hst
      rw [e] at this
      exact spec_arith rfl this
    · simp only [rep3Mod, h2]
      refine Spec.bind (Yao.Gc.spec_fieldIntDivByPublic ho hw hH hs h0 hst) ?_
      rintro d st₁ ⟨hd, hst₁⟩
      refine Spec.pure ⟨.arith ?_, hst₁⟩
      rw [← sub_div_mul]
      exact hs.sub (hd.scale v)
  · intro u v s t r hs ht hc hr
    obtain ⟨h0, rfl⟩ := step hr
    refine Spec.bind (Yao.Gc.spec_fieldIntDiv ho hw hH hs ht h0 hst) ?_
    rintro d st₁ ⟨hd, hst₁⟩
    refine Spec.bind (spec_mul hd ht hst₁) ?_
    rintro m st₂ ⟨hm, hst₂⟩
    refine Spec.pure ⟨.arith ?_, hst₂⟩
    rw [← sub_div_mul]
    exact hs.sub hm

end Yao

section Compare

variable [Fact p.Prime] [Sample R (ZMod p)] [Codec M (List (ZMod p))]
  [Sample R (BitVec w)] [UintCodec M w] [Yao.YaoRng R] [Yao.YaoNet M]

theorem spec_valShare {s : PartyID → Share (ZMod p)} {v : ZMod p} (hs : IsShare s v) (hst : Corr ty st) :
    Spec (M := M) (fun i => valShare (s i)) st (fun r st' => IsShare r (shiftedVal v) ∧ Corr ty st') := by
  refine Spec.bind (spec_stateId hst) ?_
  rintro _ _ ⟨rfl, rfl⟩
  exact Spec.pure ⟨(Props.C06_linear hs hs (negativeOne p)).2.2.2.2.2.1, hst⟩

/-- A comparison with a public value, after the shift. -/
theorem spec_cmpPublic {s : PartyID → Share (ZMod p)} {v u : ZMod p} (hs : IsShare s v) (hst : Corr ty st)
    {q : Share (ZMod p) → Rep3M R M (Share (ZMod p))} {f : ZMod p → ZMod p} (hv : f (shiftedVal v) = u)
    (hq : ∀ {s : PartyID → Share (ZMod p)} {v : ZMod p} {st}, IsShare s v → Corr ty st →
      Ensures (fun i => q (s i)) st (fun r st' => IsShare r (f v) ∧ Corr ty st')) :
    Spec (fun i => valShare (s i) >>= fun s => q s >>= fun r => Pure.pure (VmVal.arith r : Rep3Val p)) st
      (fun r st' => Holds IsShare r (.arith u) ∧ Corr ty st') := by
  refine Spec.bind (spec_valShare hs hst) ?_
  rintro d st₁ ⟨hd, hst₁⟩
  exact spec_arith hv (ensures_iff.mp (hq hd hst₁))

/-- A comparison of two shares, after the shift. -/
theorem spec_cmpShared {s t : PartyID → Share (ZMod p)} {v v' u : ZMod p} (hs : IsShare s v) (ht : IsShare t v')
    (hst : Corr ty st) {q : Share (ZMod p) → Share (ZMod p) → Rep3M R M (Share (ZMod p))} {f : ZMod p → ZMod p → ZMod p}
    (hv : f (shiftedVal v) (shiftedVal v') = u)
    (hq : ∀ {s t : PartyID → Share (ZMod p)} {v v' : ZMod p} {st}, IsShare s v → IsShare t v' → Corr ty st →
      Ensures (fun i => q (s i) (t i)) st (fun r st' => IsShare r (f v v') ∧ Corr ty st')) :
    Spec (fun i => valShare (s i) >>= fun s => valShare (t i) >>= fun t => q s t >>= fun r =>
      Pure.pure (VmVal.arith r : Rep3Val p)) st
      (fun r st' => Holds IsShare r (.arith u) ∧ Corr ty st') := by
  refine Spec.bind (spec_valShare hs hst) ?_
  rintro d st₁ ⟨hd, hst₁⟩
  refine Spec.bind (spec_valShare ht hst₁) ?_
  rintro e st₂ ⟨he, hst₂⟩
  exact spec_arith hv (ensures_iff.mp (hq hd he hst₂))

theorem ofBool_eq (b : Bool) : Props.ofBool (p := p) b = bit b := rfl

theorem spec_rep3Lt (ho : p % 2 = 1) (hw : modBits p + 2 ≤ w)
    (hx : Holds IsShare x a) (hy : Holds IsShare y b) (h : refBin c .lt a b = .ok z) (hst : Corr ty st) :
    Spec (M := M) (fun i => rep3Lt w (x i) (y i)) st (fun r st' => Holds IsShare r z ∧ Corr ty st') := by
  refine refBin_elim (C := fun x y z => Spec (M := M) (fun i => rep3Lt w (x i) (y i)) st
    (fun r st' => Holds IsShare r z ∧ Corr ty st')) hx hy h ?_ ?_ ?_ ?_
  · intro u v r hr; exact spec_liftPub hr hst
  · intro u v t r ht hc hr
    have hne := mt shiftedVal_inj.mp (of_decide_eq_true hc)
    refine spec_cmpPublic ht hst (f := fun v => bit (decide (v.val ≥ (shiftedVal u).val))) ?_
      fun h h' => (Props.C27_compare_public hw (fun _ => ho) h _ h').2.2.2
    rw [← ok_inj.mp hr]
    congr 2; exact propext ⟨fun h => lt_of_le_of_ne h hne, le_of_lt⟩
  · intro u v s r hs hc hr
    exact spec_cmpPublic hs hst (f := fun w => bit (decide (w.val < (shiftedVal v).val))) (ok_inj.mp hr)
      fun h h' => (Props.C27_compare_public hw (fun _ => ho) h _ h').1
  · intro u v s t r hs ht hc hr
    exact spec_cmpShared hs ht hst (f := fun w w' => bit (decide (w.val < w'.val))) (ok_inj.mp hr)
      fun h h1 h' => (Props.C27_compare hw (fun _ => ho) h h1 h').1

theorem spec_rep3Le (ho : p % 2 = 1) (hw : modBits p + 2 ≤ w)
    (hx : Holds IsShare x a) (hy : Holds IsShare y b) (h : refBin c .le a b = .ok z) (hst : Corr ty st) :
    Spec (M := M) (fun i => rep3Le w (x i) (y i)) st (fun r st' => Holds IsShare r z ∧ Corr ty st') := by
  refine refBin_elim (C := fun x y z => Spec (M := M) (fun i => rep3Le w (x i) (y i)) st
    (fun r st' => Holds IsShare r z ∧ Corr ty st')) hx hy h ?_ ?_ ?_ ?_
  · intro u v r hr; exact spec_liftPub hr hst
  · intro u v t r ht hc hr
    have hne := mt shiftedVal_inj.mp (of_decide_eq_true hc)
    refine spec_cmpPublic ht hst (f := fun v => bit (decide (v.val > (shiftedVal u).val))) ?_
      fun h h' => (Props.C27_compare_public hw (fun _ => ho) h _ h').2.2.1
    rw [← ok_inj.mp hr]
    congr 2; exact propext ⟨le_of_lt, fun h => lt_of_le_of_ne h hne⟩
  · intro u v s r hs hc hr
    exact spec_cmpPublic hs hst (f := fun w => bit (decide (w.val ≤ (shiftedVal v).val))) (ok_inj.mp hr)
      fun h h' => (Props.C27_compare_public hw (fun _ => ho) h _ h').2.1
  · intro u v s t r hs ht hc hr
    exact spec_cmpShared hs ht hst (f := fun w w' => bit (decide (w.val ≤ w'.val))) (ok_inj.mp hr)
      fun h h1 h' => (Props.C27_compare hw (fun _ => ho) h h1 h').2.1

theorem spec_rep3Gt (ho : p % 2 = 1) (hw : modBits p + 2 ≤ w)
    (hx : Holds IsShare x a) (hy : Holds IsShare y b) (h : refBin c .gt a b = .ok z) (hst : Corr ty st) :
    Spec (M := M) (fun i => rep3Gt w (x i) (y i)) st (fun r st' => Holds IsShare r z ∧ Corr ty st') := by
  refine refBin_elim (C := fun x y z => Spec (M := M) (fun i => rep3Gt w (x i) (y i)) st
    (fun r st' => Holds IsShare r z ∧ Corr ty st')) hx hy h ?_ ?_ ?_ ?_
  · intro u v r hr; exact spec_liftPub hr hst
  · intro u v t r ht hc hr
    have hne := mt shiftedVal_inj.mp (of_decide_eq_true hc)
    refine spec_cmpPublic ht hst (f := fun v => bit (decide (v.val ≤ (shiftedVal u).val))) ?_
      fun h h' => (Props.C27_compare_public hw (fun _ => ho) h _ h').2.1
    rw [← ok_inj.mp hr]
    congr 2; exact propext ⟨fun h => lt_of_le_of_ne h (Ne.symm hne), le_of_lt⟩
  · intro u v s r hs hc hr
    exact spec_cmpPublic hs hst (f := fun w => bit (decide (w.val > (shiftedVal v).val))) (ok_inj.mp hr)
      fun h h' => (Props.C27_compare_public hw (fun _ => ho) h _ h').2.2.1
  · intro u v s t r hs ht hc hr
    exact spec_cmpShared hs ht hst (f := fun w w' => bit (decide (w.val > w'.val))) (ok_inj.mp hr)
      fun h h1 h' => (Props.C27_compare hw (fun _ => ho) h h1 h').2.2.1

theorem spec_rep3Ge (ho : p % 2 = 1) (hw : modBits p + 2 ≤ w)
    (hx : Holds IsShare x a) (hy : Holds IsShare y b) (h : refBin c .ge a b = .ok z) (hst : Corr ty st) :
    Spec (M := M) (fun i => rep3Ge w (x i) (y i)) st (fun r st' => Holds IsShare r z ∧ Corr ty st') := by
  refine refBin_elim (C := fun x y z => Spec (M := M) (fun i => rep3Ge w (x i) (y i)) st
    (fun r st' => Holds IsShare r z ∧ Corr ty st')) hx hy h ?_ ?_ ?_ ?_
  · intro u v r hr; exact spec_liftPub hr hst
  · intro u v t r ht hc hr
    have hne := mt shiftedVal_inj.mp (of_decide_eq_true hc)
    refine spec_cmpPublic ht hst (f := fun v => bit (decide (v.val < (shiftedVal u).val))) ?_
      fun h h' => (Props.C27_compare_public hw (fun _ => ho) h _ h').1
    rw [← ok_inj.mp hr]
    congr 2; exact propext ⟨le_of_lt, fun h => lt_of_le_of_ne h (Ne.symm hne)⟩
  · intro u v s r hs hc hr
    exact spec_cmpPublic hs hst (f := fun w => bit (decide (w.val ≥ (shiftedVal v).val))) (ok_inj.mp hr)
      fun h h' => (Props.C27_compare_public hw (fun _ => ho) h _ h').2.2.2
  · intro u v s t r hs ht hc hr
    exact spec_cmpShared hs ht hst (f := fun w w' => bit (decide (w.val ≥ w'.val))) (ok_inj.mp hr)
      fun h h1 h' => (Props.C27_compare hw (fun _ => ho) h h1 h').2.2.2

theorem spec_rep3Eq (ho : p % 2 = 1) (hw : modBits p + 2 ≤ w)
    (hx : Holds IsShare x a) (hy : Holds IsShare y b) (h : refBin c .eq a b = .ok z) (hst : Corr ty st) :
    Spec (M := M) (fun i => rep3Eq w (x i) (y i)) st (fun r st' => Holds IsShare r z ∧ Corr ty st') := by
  refine refBin_elim (C := fun x y z => Spec (M := M) (fun i => rep3Eq w (x i) (y i)) st
    (fun r st' => Holds IsShare r z ∧ Corr ty st')) hx hy h ?_ ?_ ?_ ?_
  · intro u v r hr; exact spec_liftPub hr hst
  · intro u v t r ht hc hr
    refine spec_arith ?_ (ensures_iff.mp (Props.C28_eq hw (fun _ => ho) ht ht u hst).2.2.1)
    rw [← ok_inj.mp hr, ofBool_eq]; congr 2; exact propext eq_comm
  · intro u v s r hs hc hr
    exact spec_arith (ok_inj.mp hr) (ensures_iff.mp (Props.C28_eq hw (fun _ => ho) hs hs v hst).2.2.1)
  · intro u v s t r hs ht hc hr
    exact spec_arith (ok_inj.mp hr) (ensures_iff.mp (Props.C28_eq hw (fun _ => ho) hs ht 0 hst).1)

theorem spec_rep3Neq (ho : p % 2 = 1) (hw : modBits p + 2 ≤ w)
    (hx : Holds IsShare x a) (hy : Holds IsShare y b) (h : refBin c .neq a b = .ok z) (hst : Corr ty st) :
    Spec (M := M) (fun i => rep3Neq w (x i) (y i)) st (fun r st' => Holds IsShare r z ∧ Corr ty st') := by
  refine refBin_elim (C := fun x y z => Spec (M := M) (fun i => rep3Neq w (x i) (y i)) st
    (fun r st' => Holds IsShare r z ∧ Corr ty st')) hx hy h ?_ ?_ ?_ ?_
  · intro u v r hr; exact spec_liftPub hr hst
  · intro u v t r ht hc hr
    refine spec_arith ?_ (ensures_iff.mp (Props.C28_eq hw (fun _ => ho) ht ht u hst).2.2.2)
    rw [← ok_inj.mp hr, ofBool_eq]; congr 2; exact propext ne_comm
  · intro u v s r hs hc hr
    exact spec_arith (ok_inj.mp hr) (ensures_iff.mp (Props.C28_eq hw (fun _ => ho) hs hs v hst).2.2.2)
  · intro u v s t r hs ht hc hr
    exact spec_arith (ok_inj.mp hr) (ensures_iff.mp (Props.C28_eq hw (fun _ => ho) hs ht 0 hst).2.1)

theorem signed_unique (ho : p % 2 = 1) {y r : ZMod p} (h : y * y = r * r) :
    (if isNegative y then -y else y) = if isNegative r then -r else r := by
  rcases mul_self_eq_mul_self_iff.mp h with rfl | rfl
  · rfl
  · by_cases h0 : r = 0
    · simp [h0]
    · rw [isNegative_neg ho h0]
      cases isNegative r <;> simp

theorem spec_rep3Sqrt_exact [HasSqrt (ZMod p)] (ho : p % 2 = 1) (hw : modBits p + 2 ≤ w)
    (hx : Holds IsShare x a) (h : (ref p c).sqrt a = .ok z) (hst : Corr ty st) :
    SpecE (M := M) (fun i => rep3Sqrt w (x i)) st
      (AllOrNone (c.randomized = true ∧ (randValue (ZMod p) st = 0 ∨ randValue (ZMod p) (afterRand (ZMod p) st) = 0))
        fun r st' => Holds IsShare r z ∧ Corr ty st') := by
  cases a with
  | pub a =>
    cases hx
    obtain ⟨v, hv, rfl⟩ := map_ok (h : VmVal.pub <$> plainSqrt a = .ok z)
    exact specE_ok (spec_liftPub hv hst)
  | arith a =>
    obtain ⟨s, rfl, hs⟩ := hx
    have h' : (if c.randomized then .arith <$> plainSqrt a else refuse) = Except.ok z := h
    split at h'
    case isFalse => cases h'
    rename_i hc
    obtain ⟨v, hv, rfl⟩ := map_ok h'
    rw [plainSqrt] at hv
    split at hv
    · cases hv
    · rename_i r hr
      have hr := HasSqrt.sqrt_some _ _ hr
      refine SpecE.bindAll (spec_sqrt hs hst) ?_ ?_
      · rintro q st' ⟨⟨y, hy, hq⟩, hst'⟩
        refine specE_ok (Spec.bind (spec_valShare hq hst') ?_)
        rintro d st₁ ⟨hd, hst₁⟩
        refine Spec.bind (ensures_iff.mp (Props.C27_compare_public hw (fun _ => ho) hd (shiftedVal 0) hst₁).2.2.2) ?_
        rintro e st₂ ⟨he, hst₂⟩
        refine Spec.bind (spec_mul hq he hst₂) ?_
        rintro m st₃ ⟨hm, hst₃⟩
        refine Spec.pure ⟨.arith ?_, hst₃⟩
        have e1 : v = y * Props.ofBool (decide ((shiftedVal y).val ≥ (shiftedVal (0 : ZMod p)).val)) +
            y * Props.ofBool (decide ((shiftedVal y).val ≥ (shiftedVal (0 : ZMod p)).val)) - y := by
          rw [← ok_inj.mp hv, ← signed_unique ho (hy.trans hr.symm), Props.ofBool]
          have := shiftedVal_zero_le ho y
          cases hn : isNegative y <;> simp [this, hn]
        rw [e1]
        exact (hm.add hm).sub hq
      · rintro e (h0 | h0)
        · exact absurd ⟨r, hr⟩ h0
        · exact .inl ⟨e, fun _ => rfl, hc, h0⟩

theorem spec_rep3Sqrt [HasSqrt (ZMod p)] (ho : p % 2 = 1) (hw : modBits p + 2 ≤ w)
    (hx : Holds IsShare x a) (h : (ref p c).sqrt a = .ok z) (hst : Corr ty st) :
    Op (M := M) c ty (fun i => rep3Sqrt w (x i)) st z :=
  (spec_rep3Sqrt_exact ho hw hx h hst).mono fun _ h => allOrNone_imp h And.left fun _ _ => id

end Compare

/-- What the operations of the driver establish on the pair of networks. -/
abbrev Op₂ {J : Type} (c : RefCfg) (ty : A2BType) (q : PartyID → MPC₂ PartyID (Rep3State R) M J (Rep3Val p))
    (st₀ st₁ : PartyID → Rep3State R) (z : RefVal p) : Prop :=
  Spec₂F (c.randomized = true) q st₀ st₁ fun r s₀ s₁ => Holds IsShare r z ∧ Corr ty s₀ ∧ Corr ty s₁

theorem Op.first {J : Type} {q : PartyID → Rep3M R M (Rep3Val p)} {st₁ : PartyID → Rep3State R} (h : Op c ty q st z)
    (hst₁ : Corr ty st₁) : Op₂ (J := J) c ty (fun i => MPC₂.first (q i)) st st₁ z :=
  Spec₂F.first (h.mono fun _ h => allOrNone_imp h id fun _ _ h => ⟨h.1, h.2, hst₁⟩)

section Bits

variable [Fact p.Prime] [Sample R (ZMod p)] [Codec M (List (ZMod p))]
  [Sample R (BitVec w)] [UintCodec M w] [Yao.YaoRng R] [Yao.YaoNet M]

theorem val_lt_two_pow (hw : modBits p + 2 ≤ w) (v : ZMod p) : v.val < 2 ^ w := by
  have h1 := ZMod.val_lt v
  have h2 : p < 2 ^ modBits p := lt_two_pow_modBits
  have h3 : 2 ^ modBits p ≤ 2 ^ w := Nat.pow_le_pow_right (by decide) (by omega)
  omega

theorem spec_rep3ShiftR (ho : p % 2 = 1) (hw : modBits p + 2 ≤ w) (hH : Yao.HashSeparates (Yao.YaoNet.hash M))
    (hx : Holds IsShare x a) (hy : Holds IsShare y b) (h : refBin c .shiftR a b = .ok z) (hst : Corr ty st) :
    Spec (M := M) (fun i => rep3ShiftR w (x i) (y i)) st (fun r st' => Holds IsShare r z ∧ Corr ty st') := by
  refine refBin_elim (C := fun x y z => Spec (M := M) (fun i => rep3ShiftR w (x i) (y i)) st
    (fun r st' => Holds IsShare r z ∧ Corr ty st')) hx hy h ?_ ?_ ?_ ?_
  · intro u v r hr; exact spec_liftPub hr hst
  · intro u v t r ht hc hr
    have h0 : u = 0 := of_decide_eq_true hc
    obtain ⟨k, _, hk⟩ := bind_ok hr
    have hr0 : r = 0 := by rw [← ok_inj.mp hk, h0]; simp
    simp only [rep3ShiftR, h0, if_true, publicResult, hr0]
    exact Spec.pure ⟨rfl, hst⟩
  · intro u v s r hs hc hr
    have hlt : v.val < 2 ^ 64 := of_decide_eq_true hc
    simp only [plainBin, toUsize, if_pos hlt] at hr
    obtain rfl := ok_inj.mp hr
    refine Spec.bind (spec_a2bSelector hw (fun _ => ho) hs hst) ?_
    rintro q st₁ ⟨hq, hst₁⟩
    simp only [Bin.shiftRPublic, if_pos hlt, orPanic]
    have h1 := hq.shr v.val
    have e : ((Uint.ofField w u) >>> v.val).toNat = u.val >>> v.val := by
      rw [BitVec.toNat_ushiftRight, ofField_toNat (by omega)]
    refine spec_arith (by rw [e]) (spec_b2aSelector hw (fun _ => ho) (fun _ => hH) h1 ?_ hst₁)
    rw [e]
    exact lt_of_le_of_lt (Nat.shiftRight_le _ _) (ZMod.val_lt u)
  · intro u v s t r hs ht hc hr; simp [supported] at hc

theorem spec_rep3ShiftL (ho : p % 2 = 1) (hw : modBits p + 2 ≤ w) (hH : Yao.HashSeparates (Yao.YaoNet.hash M))
    (hx : Holds IsShare x a) (hy : Holds IsShare y b) (h : refBin c .shiftL a b = .ok z) (hst : Corr ty st) :
    Spec (M := M) (fun i => rep3ShiftL w (x i) (y i)) st (fun r st' => Holds IsShare r z ∧ Corr ty st') := by
  refine refBin_elim (C := fun x y z => Spec (M := M) (fun i => rep3ShiftL w (x i) (y i)) st
    (fun r st' => Holds IsShare r z ∧ Corr ty st')) hx hy h ?_ ?_ ?_ ?_
  · intro u v r hr; exact spec_liftPub hr hst
  · intro u v t r ht hc hr
    simp only [supported, VmVal.val, Bool.or_eq_true, decide_eq_true_eq] at hc
    obtain ⟨k, hk, hk'⟩ := bind_ok hr
    by_cases h0 : u = 0
    · have hr0 : r = 0 := by rw [← ok_inj.mp hk', h0]; simp
      simp only [rep3ShiftL, h0, if_true, publicResult, hr0, decide_true]
      exact Spec.pure ⟨rfl, hst⟩
    · have hv := of_decide_eq_true (hc.resolve_left h0)
      simp only [rep3ShiftL, h0, if_false, publicResult, decide_false]
      refine Spec.bind (spec_a2bSelector hw (fun _ => ho) ht hst) ?_
      rintro q st₁ ⟨hq, hst₁⟩
      refine spec_arith ?_ (spec_shiftLPublicByShared (Fact.out : p.Prime).one_lt u hw (fun _ => ho) (fun _ => hH) hq hst₁)
      rw [ofField_toNat (by omega), Nat.mod_eq_of_lt hv, ← ok_inj.mp hk']
      rw [toUsize, if_pos (by omega)] at hk
      rw [ok_inj.mp hk]
  · intro u v s r hs hc hr
    simp only [supported, Bool.and_eq_true, decide_eq_true_eq] at hc
    obtain ⟨k, hk, hk'⟩ := bind_ok hr
    have e : u * 2 ^ v.val = r := by
      rw [toUsize, if_pos (by omega)] at hk
      rw [← ok_inj.mp hk', ok_inj.mp hk]
    by_cases h0 : v.val = 0
    · have : ∀ i, pow2Public (modBits p) (s i) v.val = some (s i) := fun i => by simp [pow2Public, h0]
      simp only [rep3ShiftL, this, orPanic]
      refine spec_arith (v := u) (by rw [← e, h0]; simp) (Spec.pure ⟨hs, hst⟩)
    · have : ∀ i, pow2Public (modBits p) (s i) v.val = some (mulPublic (s i) (2 ^ v.val)) := fun i => by
        have h1 : ¬ 2 ^ 32 ≤ v.val := by omega
        have h2 : ¬ modBits p ≤ v.val := by omega
        simp [pow2Public, h0, h2]
        omega
      simp only [rep3ShiftL, this, orPanic]
      exact spec_arith e (Spec.pure ⟨hs.scale _, hst⟩)
  · intro u v s t r hs ht hc hr; simp [supported] at hc

/-- The end of the bit operations. -/
theorem spec_b2aArith (ho : p % 2 = 1) (hw : modBits p + 2 ≤ w) (hH : Yao.HashSeparates (Yao.YaoNet.hash M))
    {q : PartyID → Share (BitVec w)} {v : BitVec w} {u : ZMod p} {k : Nat} (hq : IsBShare q v) (hv : v.toNat = k)
    (hlt : k < p) (hu : (k : ZMod p) = u) (hst : Corr ty st) :
    Spec (M := M) (fun i => b2aSelector (p := p) (q i) >>= fun r => Pure.pure (VmVal.arith r : Rep3Val p)) st
      (fun r st' => Holds IsShare r (.arith u) ∧ Corr ty st') :=
  spec_arith (by rw [hv, hu]) (spec_b2aSelector hw (fun _ => ho) (fun _ => hH) hq (by rw [hv]; exact hlt) hst)

theorem spec_bitPublic (ho : p % 2 = 1) (hw : modBits p + 2 ≤ w) (hH : Yao.HashSeparates (Yao.YaoNet.hash M))
    {f : Share (BitVec w) → PartyID → Share (BitVec w)} {g : BitVec w → BitVec w} {k : Nat} {u v : ZMod p}
    (hf : ∀ {q : PartyID → Share (BitVec w)} {v}, IsBShare q v → IsBShare (fun i => f (q i) i) (g v))
    (hk : (g (Uint.ofField w v)).toNat = k) (hlt : k < p) (hu : (k : ZMod p) = u)
    {s : PartyID → Share (ZMod p)} (hs : IsShare s v) (hst : Corr ty st) :
    Spec (M := M) (fun i => bitPublic w f (s i)) st
      (fun r st' => Holds IsShare r (.arith u) ∧ Corr ty st') := by
  refine Spec.bind (spec_a2bSelector hw (fun _ => ho) hs hst) ?_
  rintro q st₁ ⟨hq, hst₁⟩
  refine Spec.bind (spec_stateId hst₁) ?_
  rintro _ _ ⟨rfl, rfl⟩
  exact spec_b2aArith ho hw hH (hf hq) hk hlt hu hst₁

variable {J : Type} [Codec J (Share (BitVec w))]

variable {st₁ : PartyID → Rep3State R}

theorem spec_bitShared (ho : p % 2 = 1) (hw : modBits p + 2 ≤ w) (hH : Yao.HashSeparates (Yao.YaoNet.hash M))
    {f : Share (BitVec w) → Share (BitVec w) → Rep3M R M (Share (BitVec w))} {g : BitVec w → BitVec w → BitVec w}
    {k : Nat} {u v v' : ZMod p}
    (hf : ∀ {q q' : PartyID → Share (BitVec w)} {v v' st}, IsBShare q v → IsBShare q' v' → Corr ty st →
      Spec (fun i => f (q i) (q' i)) st (fun r st' => IsBShare r (g v v') ∧ Corr ty st'))
    (hk : (g (Uint.ofField w v) (Uint.ofField w v')).toNat = k) (hlt : k < p) (hu : (k : ZMod p) = u)
    {s t : PartyID → Share (ZMod p)} (hs : IsShare s v) (ht : IsShare t v') (hst : Corr ty st) (hst₁ : Corr ty st₁) :
    Op₂ (J := J) c ty (fun i => bitShared w f (s i) (t i)) st st₁ (.arith u) := by
  refine Spec₂F.bind (Spec₂.join (Q := fun r s₀ s₁ => IsBShare (fun i => (r i).1) (Uint.ofField w v) ∧
      IsBShare (fun i => (r i).2) (Uint.ofField w v') ∧ Corr ty s₀ ∧ Corr ty s₁) ?_).specF ?_
  · refine (spec_a2bSelector hw (fun _ => ho) hs hst).mono ?_
    rintro q s₀ ⟨hq, hs₀⟩
    refine (spec_a2bSelector hw (fun _ => ho) ht hst₁).mono ?_
    rintro q' s₁ ⟨hq', hs₁⟩
    exact ⟨hq, hq', hs₀, hs₁⟩
  · rintro r s₀ s₁ ⟨h1, h2, hs₀, hs₁⟩
    refine Op.first (Op.of ?_) hs₁
    refine Spec.bind (hf h1 h2 hs₀) ?_
    rintro q st₂ ⟨hq, hst₂⟩
    exact spec_b2aArith ho hw hH hq hk hlt hu hst₂

theorem spec_rep3BitXor (ho : p % 2 = 1) (hw : modBits p + 2 ≤ w) (hH : Yao.HashSeparates (Yao.YaoNet.hash M))
    (hx : Holds IsShare x a) (hy : Holds IsShare y b) (h : refBin c .bitXor a b = .ok z) (hst : Corr ty st)
    (hst₁ : Corr ty st₁) : Op₂ (M := M) (J := J) c ty (fun i => rep3BitXor w (x i) (y i)) st st₁ z := by
  refine refBin_elim (C := fun x y z => Op₂ (M := M) (J := J) c ty (fun i => rep3BitXor w (x i) (y i)) st st₁ z)
    hx hy h ?_ ?_ ?_ ?_
  · intro u v r hr; exact (Op.of (spec_liftPub hr hst)).first hst₁
  · intro u v t r ht hc hr
    refine (Op.of (spec_bitPublic ho hw hH (k := u.val ^^^ v.val) (fun h => h.xorPublic _) ?_ (of_decide_eq_true hc)
      (ok_inj.mp hr) ht hst)).first hst₁
    rw [BitVec.toNat_xor, ofField_toNat (by omega), ofField_toNat (by omega), Nat.xor_comm]
  · intro u v s r hs hc hr
    refine (Op.of (spec_bitPublic ho hw hH (k := u.val ^^^ v.val) (fun h => h.xorPublic _) ?_ (of_decide_eq_true hc)
      (ok_inj.mp hr) hs hst)).first hst₁
    rw [BitVec.toNat_xor, ofField_toNat (by omega), ofField_toNat (by omega)]
  · intro u v s t r hs ht hc hr
    refine spec_bitShared ho hw hH (g := fun a b => a ^^^ b) (k := u.val ^^^ v.val)
      (f := fun a b => Pure.pure (a.bxor b)) (fun h h' hst => Spec.pure ⟨h.bxor h', hst⟩) ?_ (of_decide_eq_true hc) (ok_inj.mp hr) hs ht hst hst₁
    rw [BitVec.toNat_xor, ofField_toNat (by omega), ofField_toNat (by omega)]

theorem spec_rep3BitOr (ho : p % 2 = 1) (hw : modBits p + 2 ≤ w) (hH : Yao.HashSeparates (Yao.YaoNet.hash M))
    (hx : Holds IsShare x a) (hy : Holds IsShare y b) (h : refBin c .bitOr a b = .ok z) (hst : Corr ty st)
    (hst₁ : Corr ty st₁) : Op₂ (M := M) (J := J) c ty (fun i => rep3BitOr w (x i) (y i)) st st₁ z := by
  refine refBin_elim (C := fun x y z => Op₂ (M := M) (J := J) c ty (fun i => rep3BitOr w (x i) (y i)) st st₁ z)
    hx hy h ?_ ?_ ?_ ?_
  · intro u v r hr; exact (Op.of (spec_liftPub hr hst)).first hst₁
  · intro u v t r ht hc hr
    refine (Op.of (spec_bitPublic ho hw hH (k := u.val ||| v.val) (fun h => Bin.isBShare_orPublic h _) ?_
      (of_decide_eq_true hc) (ok_inj.mp hr) ht hst)).first hst₁
    rw [BitVec.toNat_or, ofField_toNat (by omega), ofField_toNat (by omega), Nat.or_comm]
  · intro u v s r hs hc hr
    refine (Op.of (spec_bitPublic ho hw hH (k := u.val ||| v.val) (fun h => Bin.isBShare_orPublic h _) ?_
      (of_decide_eq_true hc) (ok_inj.mp hr) hs hst)).first hst₁
    rw [BitVec.toNat_or, ofField_toNat (by omega), ofField_toNat (by omega)]
  · intro u v s t r hs ht hc hr
    refine spec_bitShared ho hw hH (g := fun a b => a ||| b) (k := u.val ||| v.val)
      (fun h h' hst => Bin.spec_or h h' hst) ?_ (of_decide_eq_true hc) (ok_inj.mp hr) hs ht hst hst₁
    rw [BitVec.toNat_or, ofField_toNat (by omega), ofField_toNat (by omega)]

theorem spec_rep3BitAnd (ho : p % 2 = 1) (hw : modBits p + 2 ≤ w) (hH : Yao.HashSeparates (Yao.YaoNet.hash M))
    (hx : Holds IsShare x a) (hy : Holds IsShare y b) (h : refBin c .bitAnd a b = .ok z) (hst : Corr ty st)
    (hst₁ : Corr ty st₁) : Op₂ (M := M) (J := J) c ty (fun i => rep3BitAnd w (x i) (y i)) st st₁ z := by
  refine refBin_elim (C := fun x y z => Op₂ (M := M) (J := J) c ty (fun i => rep3BitAnd w (x i) (y i)) st st₁ z)
    hx hy h ?_ ?_ ?_ ?_
  · intro u v r hr; exact (Op.of (spec_liftPub hr hst)).first hst₁
  · intro u v t r ht hc hr
    refine (Op.of (spec_bitPublic ho hw hH (k := u.val &&& v.val) (fun h => h.andMask _) ?_
      (lt_of_le_of_lt Nat.and_le_left (ZMod.val_lt u)) (ok_inj.mp hr) ht hst)).first hst₁
    rw [BitVec.toNat_and, ofField_toNat (by omega), ofField_toNat (by omega), Nat.and_comm]
  · intro u v s r hs hc hr
    refine (Op.of (spec_bitPublic ho hw hH (k := u.val &&& v.val) (fun h => h.andMask _) ?_
      (lt_of_le_of_lt Nat.and_le_left (ZMod.val_lt u)) (ok_inj.mp hr) hs hst)).first hst₁
    rw [BitVec.toNat_and, ofField_toNat (by omega), ofField_toNat (by omega)]
  · intro u v s t r hs ht hc hr
    refine spec_bitShared ho hw hH (g := fun a b => a &&& b) (k := u.val &&& v.val)
      (fun h h' hst => Bin.spec_and h h' hst) ?_ (lt_of_le_of_lt Nat.and_le_left (ZMod.val_lt u)) (ok_inj.mp hr)
      hs ht hst hst₁
    rw [BitVec.toNat_and, ofField_toNat (by omega), ofField_toNat (by omega)]

/-- All binary operations. -/
theorem spec_rep3Bin (ho : p % 2 = 1) (hw : modBits p + 2 ≤ w) (hH : Yao.HashSeparates (Yao.YaoNet.hash M)) {op : BinOp}
    (hx : Holds IsShare x a) (hy : Holds IsShare y b) (h : refBin c op a b = .ok z) (hst : Corr ty st)
    (hst₁ : Corr ty st₁) : Op₂ (M := M) (J := J) c ty (fun i => rep3Bin w op (x i) (y i)) st st₁ z := by
  have hw' : modBits p ≤ w := by omega
  cases op with
  | add => exact (Op.of (spec_rep3Add hx hy h hst)).first hst₁
  | sub => exact (Op.of (spec_rep3Sub hx hy h hst)).first hst₁
  | mul => exact (Op.of (spec_rep3Mul hx hy h hst)).first hst₁
  | div => exact (spec_rep3Div hx hy h hst).first hst₁
  | intDiv => exact (Op.of (spec_rep3IntDiv ho hw' hH hx hy h hst)).first hst₁
  | pow => exact (Op.of (spec_rep3Pow hx hy h hst)).first hst₁
  | mod => exact (Op.of (spec_rep3Mod ho hw' hH hx hy h hst)).first hst₁
  | lt => exact (Op.of (spec_rep3Lt ho hw hx hy h hst)).first hst₁
  | le => exact (Op.of (spec_rep3Le ho hw hx hy h hst)).first hst₁
  | gt => exact (Op.of (spec_rep3Gt ho hw hx hy h hst)).first hst₁
  | ge => exact (Op.of (spec_rep3Ge ho hw hx hy h hst)).first hst₁
  | eq => exact (Op.of (spec_rep3Eq ho hw hx hy h hst)).first hst₁
  | neq => exact (Op.of (spec_rep3Neq ho hw hx hy h hst)).first hst₁
  | shiftR => exact (Op.of (spec_rep3ShiftR ho hw hH hx hy h hst)).first hst₁
  | shiftL => exact (Op.of (spec_rep3ShiftL ho hw hH hx hy h hst)).first hst₁
  | boolOr => exact (Op.of (spec_rep3BoolOr hx hy h hst)).first hst₁
  | boolAnd => exact (Op.of (spec_rep3BoolAnd hx hy h hst)).first hst₁
  | bitOr => exact spec_rep3BitOr ho hw hH hx hy h hst hst₁
  | bitAnd => exact spec_rep3BitAnd ho hw hH hx hy h hst hst₁
  | bitXor => exact spec_rep3BitXor ho hw hH hx hy h hst hst₁

end Bits

section Unary

/-- Lists of values. -/
abbrev HoldsAll (x : PartyID → List (Rep3Val p)) (vs : List (RefVal p)) : Prop := Cols (Holds IsShare) x vs

theorem spec_rep3Neg [Fact p.Prime] [HasSqrt (ZMod p)] (hx : Holds IsShare x a) (h : (ref p c).neg a = .ok z)
    (hst : Corr ty st) :
    Spec (M := M) (fun i => rep3Neg (x i)) st (fun r st' => Holds IsShare r z ∧ Corr ty st') := by
  cases a with
  | pub a =>
    cases hx
    obtain rfl := ok_inj.mp (h : .ok (.pub (-a)) = Except.ok z)
    exact Spec.pure ⟨rfl, hst⟩
  | arith a =>
    obtain ⟨s, rfl, hs⟩ := hx
    obtain rfl := ok_inj.mp (h : .ok (.arith (-a)) = Except.ok z)
    exact Spec.pure ⟨.arith hs.neg, hst⟩

theorem isArith_of_holds (hx : Holds IsShare x a) (i : PartyID) : (x i).isArith = a.isArith := by
  cases a with
  | pub a => cases hx; rfl
  | arith a => obtain ⟨s, rfl, hs⟩ := hx; rfl

theorem spec_rep3ToIndex {k : Nat} [Fact p.Prime] [HasSqrt (ZMod p)] (hx : Holds IsShare x a) (h : (ref p c).toIndex a = .ok k)
    (hst : Corr ty st) :
    Spec (M := M) (fun i => rep3ToIndex (x i)) st (fun r st' => r = (fun _ => k) ∧ Corr ty st') := by
  cases a with
  | pub a =>
    cases hx
    have h' : toUsize a = .ok k := h
    simp only [rep3ToIndex, h', lift]
    exact Spec.pure ⟨rfl, hst⟩
  | arith a => cases h

theorem toShare_holds (hx : Holds IsShare x a) : IsShare (fun i => toShare i (x i)) a.val := by
  cases a with
  | pub a => cases hx; exact .promote a
  | arith a => obtain ⟨s, rfl, hs⟩ := hx; exact hs

theorem spec_rep3ToShare (hx : Holds IsShare x a) (hst : Corr ty st) :
    Spec (M := M) (fun i => rep3ToShare (x i)) st (fun r st' => IsShare r a.val ∧ Corr ty st') := by
  refine Spec.bind (spec_stateId hst) ?_
  rintro _ _ ⟨rfl, rfl⟩
  exact Spec.pure ⟨toShare_holds hx, hst⟩

variable [Codec M (List (ZMod p))] [Sample R (ZMod p)]

theorem spec_rep3Open (hx : Holds IsShare x a) (hst : Corr ty st) :
    Spec (M := M) (fun i => rep3Open (x i)) st (fun r st' => r = (fun _ => a.val) ∧ Corr ty st') := by
  cases a with
  | pub a => cases hx; exact Spec.pure ⟨rfl, hst⟩
  | arith a =>
    obtain ⟨s, rfl, hs⟩ := hx
    exact (spec_open hs).mono fun r s h => ⟨h.1, h.2 ▸ hst⟩

theorem spec_rep3Log (hx : Holds IsShare x a) (leaky : Bool) [Fact p.Prime] [HasSqrt (ZMod p)] {v : Option (ZMod p)}
    (h : (ref p c).log a leaky = .ok v) (hst : Corr ty st) :
    Spec (M := M) (fun i => rep3Log (x i) leaky) st (fun r st' => r = (fun _ => v) ∧ Corr ty st') := by
  cases a with
  | pub a =>
    cases hx
    obtain rfl := ok_inj.mp (h : .ok (some a) = Except.ok v)
    exact Spec.pure ⟨rfl, hst⟩
  | arith a =>
    obtain ⟨s, rfl, hs⟩ := hx
    obtain rfl := ok_inj.mp (h : .ok (if leaky then some a else none) = Except.ok v)
    cases leaky with
    | false => exact Spec.pure ⟨rfl, hst⟩
    | true =>
      refine Spec.bind (spec_open hs) ?_
      rintro r st' ⟨rfl, h2⟩
      exact Spec.pure ⟨rfl, h2 ▸ hst⟩

theorem spec_rep3CompareConfig (config : List Bool) (hst : Corr ty st) :
    Spec (M := M) (fun _ => rep3CompareConfig (p := p) config) st (fun _ st' => Corr ty st') := by
  have h : Spec (M := M) (fun _ => (sendNextMany (config.map (bit (p := p))) >>= fun _ => recvPrevMany (α := ZMod p) :
      Rep3M R M (List (ZMod p)))) st (fun r s => (r = fun _ => config.map bit) ∧ s = st) := by
    refine Rep3.Spec3 ?_
    simp [sendNextMany, recvPrevMany, sendMany, recvMany, MPC.recv_apply]
    exact ⟨three_prev (x := fun _ => config.map bit), three_eta _⟩
  have := Spec.bind h (k := fun _ r => if r ≠ config.map bit then MPC.bail "VM Config does not match" else Pure.pure ())
    (Q := fun _ st' => Corr ty st') ?_
  · simpa only [rep3CompareConfig, bind_assoc] using this
  · rintro r s ⟨rfl, hs⟩
    simp only [ne_eq, not_true_eq_false, if_false]
    exact Spec.pure (hs ▸ hst)

variable [Fact p.Prime] [Sample R (BitVec w)] [UintCodec M w] [Yao.YaoRng R] [Yao.YaoNet M]

theorem spec_rep3IsZero [HasSqrt (ZMod p)] (ho : p % 2 = 1) (hw : modBits p + 2 ≤ w) (hx : Holds IsShare x a) {allow v : Bool}
    (h : (ref p c).isZero a allow = .ok v) (hst : Corr ty st) :
    Spec (M := M) (fun i => rep3IsZero w (x i) allow) st (fun r st' => r = (fun _ => v) ∧ Corr ty st') := by
  have h' : (if a.isArith && !allow then .error (Err.err "allow_secret_inputs is false and input is shared")
    else .ok (decide (a.val = 0))) = Except.ok v := h
  cases a with
  | pub a =>
    cases hx
    obtain rfl := ok_inj.mp (h' : .ok (decide (a = 0)) = Except.ok v)
    exact Spec.pure ⟨rfl, hst⟩
  | arith a =>
    obtain ⟨s, rfl, hs⟩ := hx
    cases allow with
    | false => cases h'
    | true =>
      obtain rfl := ok_inj.mp (h' : .ok (decide (a = 0)) = Except.ok v)
      exact (ensures_iff.mp (Props.C28_is_zero hw (fun _ => ho) hs hst)).mono fun r s h => ⟨funext h.1, h.2⟩

theorem cols_same {α : Type} (l : List α) : Cols (fun (x : PartyID → α) v => x = fun _ => v) (fun _ => l) l := by
  induction l with
  | nil => exact .nil
  | cons a l ih => exact .cons rfl ih

theorem isBitShares_splitBits {q : PartyID → Share (BitVec w)} {v : BitVec w} (hq : IsBShare q v) (n : Nat) :
    IsBitShares (fun i => splitBits w (q i) n) ((List.range n).map fun k => v.toNat.testBit k) := by
  have := Cols.map (P := fun (x : PartyID → Nat) v => x = fun _ => v) (Q := IsBitShare (w := w))
    (f := fun i k => ((q i).shr k).andMask 1#w) (g := fun k => v.toNat.testBit k)
    (cols_same (List.range n)) (fun x k hx => ?_)
  · exact this
  · subst hx
    have := (hq.shr k).lowBit
    rwa [BitVec.getLsbD_ushiftRight, Nat.add_zero, BitVec.getLsbD] at this

theorem spec_num2bits_share (ho : p % 2 = 1) (hw : modBits p + 2 ≤ w) {s : PartyID → Share (ZMod p)} {v : ZMod p}
    (hs : IsShare s v) (n : Nat) (hst : Corr ty st) :
    Spec (M := M) (fun i => do
      let aBits ← a2bSelector (w := w) (s i)
      bitInjectMany (splitBits w aBits n)) st
      (fun r st' => IsShares r (plainNum2bits v n) ∧ Corr ty st') := by
  refine Spec.bind (spec_a2bSelector hw (fun _ => ho) hs hst) ?_
  rintro q st₁ ⟨hq, hst₁⟩
  have := spec_bitInjectMany (M := M) (p := p) (by omega) (isBitShares_splitBits hq n) hst₁
  rw [List.map_map, ofField_toNat (by omega)] at this
  exact this

theorem spec_rep3Num2bits [HasSqrt (ZMod p)] (ho : p % 2 = 1) (hw : modBits p + 2 ≤ w) (hx : Holds IsShare x a) {n : Nat}
    {vs : List (RefVal p)} (h : (ref p c).num2bits a n = .ok vs) (hst : Corr ty st) :
    Spec (M := M) (fun i => rep3Num2bits w (x i) n) st (fun r st' => HoldsAll r vs ∧ Corr ty st') := by
  cases a with
  | pub a =>
    cases hx
    obtain rfl := ok_inj.mp (h : .ok ((plainNum2bits a n).map .pub) = Except.ok vs)
    exact Spec.pure ⟨Cols.map (f := fun _ => VmVal.pub) (cols_same _) fun x v hx => by subst hx; rfl, hst⟩
  | arith a =>
    obtain ⟨s, rfl, hs⟩ := hx
    obtain rfl := ok_inj.mp (h : .ok ((plainNum2bits a n).map .arith) = Except.ok vs)
    have := spec_num2bits_share (M := M) ho hw hs n hst
    have := Spec.bind this (k := fun _ r => Pure.pure (r.map VmVal.arith : List (Rep3Val p)))
      (Q := fun r st' => HoldsAll r ((plainNum2bits a n).map .arith) ∧ Corr ty st')
      fun r st' h => Spec.pure ⟨Cols.map (f := fun _ => VmVal.arith) h.1 fun _ _ h => .arith h, h.2⟩
    simpa only [bind_assoc, rep3Num2bits] using this

theorem isShare_fromBits {l : PartyID → List (Share (ZMod p))} {vs : List (ZMod p)} (h : IsShares l vs) :
    IsShare (fun i => fromBitShares (l i)) (fromBits vs) := by
  have key : ∀ {s : PartyID → Share (ZMod p)} {v : ZMod p} (l : List (PartyID → Share (ZMod p))) (vs : List (ZMod p)),
      IsShare s v → List.Forall₂ IsShare l vs →
      IsShare (fun i => (l.map (· i)).foldl (fun acc x => Rep3.add (Rep3.add acc acc) x) (s i))
        (vs.foldl (fun acc x => acc + acc + x) v) := by
    intro s v l
    induction l generalizing s v with
    | nil => rintro _ hs (_ | _); exact hs
    | cons x l ih =>
      rintro _ hs (_ | ⟨h, h'⟩)
      exact ih (s := fun i => Rep3.add (Rep3.add (s i) (s i)) (x i)) (v := v + v + _) _ ((hs.add hs).add h) h'
  obtain ⟨l, rfl, hl⟩ := h
  exact key l vs .zero hl

theorem forall₂_snoc {α β : Type} {P : α → β → Prop} {l : List α} {vs : List β} {v : β}
    (h : List.Forall₂ P l (vs ++ [v])) : ∃ l1 l2, l = l1 ++ [l2] ∧ List.Forall₂ P l1 vs ∧ P l2 v := by
  have h1 := List.forall₂_take_append _ _ _ h
  have h2 := List.forall₂_drop_append _ _ _ h
  have e := (List.take_append_drop vs.length l).symm
  revert h1 h2 e
  generalize List.take _ l = l1
  generalize List.drop _ l = l2
  rintro h1 h2 e
  rcases h2 with _ | ⟨h2, _ | _⟩
  exact ⟨l1, _, e, h1, h2⟩

theorem spec_rep3Addbits [HasSqrt (ZMod p)] (ho : p % 2 = 1) (hw : modBits p + 2 ≤ w) {xs ys : PartyID → List (Rep3Val p)}
    {as bs : List (RefVal p)} (hx : HoldsAll xs as) (hy : HoldsAll ys bs) {r : List (RefVal p) × RefVal p}
    (h : (ref p c).addbits as bs = .ok r) (hst : Corr ty st) :
    Spec (M := M) (fun i => rep3Addbits w (xs i) (ys i)) st (fun q st' =>
      HoldsAll (fun i => (q i).1) r.1 ∧ Holds IsShare (fun i => (q i).2) r.2 ∧ Corr ty st') := by
  obtain ⟨⟨r0, carry⟩, h1, h2⟩ := bind_ok h
  obtain rfl := ok_inj.mp h2
  simp only [plainAddbits, List.length_map] at h1
  split at h1
  · cases h1
  split at h1
  · cases h1
  rename_i hl1 hl2
  obtain ⟨rfl, rfl⟩ := Prod.mk.inj (ok_inj.mp h1)
  simp only [rep3Addbits, hx.length, hy.length, if_neg hl1, if_neg hl2]
  refine Spec.bind (spec_stateId hst) ?_
  rintro _ _ ⟨rfl, rfl⟩
  have hs := (isShare_fromBits (Cols.map (Q := IsShare) (f := toShare) (g := VmVal.val) hx fun _ _ h => toShare_holds h)).add
    (isShare_fromBits (Cols.map (Q := IsShare) (f := toShare) (g := VmVal.val) hy fun _ _ h => toShare_holds h))
  have := Spec.bind (spec_num2bits_share (M := M) ho hw hs (as.length + 1) hst) (k := fun _ r => popCarry r)
    (Q := fun q st' => HoldsAll (fun i => (q i).1) (((List.range as.length).map fun i =>
      bit ((fromBits (as.map VmVal.val) + fromBits (bs.map VmVal.val)).val.testBit i)).reverse.map .arith) ∧
      Holds IsShare (fun i => (q i).2) (.arith (bit ((fromBits (as.map VmVal.val) + fromBits (bs.map VmVal.val)).val.testBit as.length)))
      ∧ Corr ty st') ?_
  · simp only [bind_assoc] at this
    exact this
  · rintro q st' ⟨hq, hst'⟩
    rw [plainNum2bits, List.range_succ, List.map_append] at hq
    obtain ⟨l, rfl, hl⟩ := hq
    obtain ⟨l1, l2, rfl, hl1', hl2'⟩ := forall₂_snoc hl
    have : ∀ i, popCarry (R := R) (M := M) ((l1 ++ [l2]).map (· i)) =
        Pure.pure ((l1.map (· i)).reverse.map VmVal.arith, VmVal.arith (l2 i)) := fun i => by
      simp [popCarry]
    simp only [this]
    refine Spec.pure ⟨Cols.map (P := IsShare) (f := fun _ => VmVal.arith) (Cols.reverse ⟨l1, rfl, hl1'⟩) fun _ _ h => .arith h, .arith hl2', hst'⟩

end Unary

end Verif.CircomVm
