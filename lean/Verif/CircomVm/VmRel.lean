import Verif.CircomVm.VmSim
import Verif.CircomVm.Rep3Lemmas

/-!
# The drivers whose runs of the VM correspond
-/

namespace Verif.CircomVm

open Rep3 PartyID

/-! ### Inputs with names -/

/-- The named inputs of the parties represent the named values `vs`. -/
def InputsHold {ι V V' : Type} (VR : (ι → V) → V' → Prop) (x : ι → List (String × V)) (vs : List (String × V')) : Prop :=
  Cols (fun a v => (∀ i, (a i).1 = v.1) ∧ VR (fun i => (a i).2) v.2) x vs

theorem InputsHold.images {ι V V' : Type} {VR : (ι → V) → V' → Prop} {x : ι → List (String × V)} {vs : List (String × V')}
    (h : InputsHold VR x vs) : ∃ l : List (String × RelW VR),
      (x = fun i => l.map (Prod.map id (RelW.left i))) ∧ vs = l.map (Prod.map id RelW.right) := by
  obtain ⟨l, rfl, hl⟩ := h
  induction hl with
  | nil => exact ⟨[], rfl, rfl⟩
  | @cons a b as bs h _ ih =>
    obtain ⟨l, h1, rfl⟩ := ih
    refine ⟨(b.1, ⟨fun i => (a i).2, b.2, h.2⟩) :: l, ?_, rfl⟩
    funext i
    have e : a i = (b.1, (a i).2) := Prod.ext (h.1 i) rfl
    have := congrFun h1 i
    simp only [List.map_cons, this, Prod.map_apply, id_eq]
    rw [e]
    rfl

section

variable {ι : Type} {m n : Type → Type} [Monad m] [Monad n] [LawfulMonad m] [LawfulMonad n] {R : MonadRel ι m n}
  {V V' P A A' : Type} {D : Driver m V P A} {D' : Driver n V' P A'} {VR : (ι → V) → V' → Prop} {AR : (ι → A) → A' → Prop}

theorem DriverRel.run (hD : DriverRel R D D' VR AR) (prog : Program) (ctx : Ctx P) (config : List Bool) {fuel fuel' : Nat}
    (hf : fuel' ≤ fuel) {x : ι → List (String × V)} {vs : List (String × V')} (hx : InputsHold VR x vs) (pi : Nat) :
    R.Rel (Finished AR) (fun i => CircomVm.run D prog ctx config fuel (x i) pi)
      (CircomVm.run D' prog ctx config fuel' vs pi) := by
  obtain ⟨l, rfl, rfl⟩ := hx.images
  exact hD.runMap prog ctx config hf l pi

theorem DriverRel.runFlat (hD : DriverRel R D D' VR AR) (prog : Program) (ctx : Ctx P) {fuel fuel' : Nat}
    (hf : fuel' ≤ fuel) {x : ι → List V} {vs : List V'} (hx : Cols VR x vs) (pi : Nat) :
    R.Rel (Finished AR) (fun i => CircomVm.runFlat D prog ctx fuel (x i) pi)
      (CircomVm.runFlat D' prog ctx fuel' vs pi) := by
  obtain ⟨l, rfl, rfl⟩ := cols_iff.mp hx
  exact hD.runFlatMap prog ctx hf l pi

end

/-! ### Rep3 and the reference driver -/

section Rep3

variable {R M J : Type} {p w : Nat} {ty : A2BType} {c : RefCfg}

/-- Whenever the reference computation succeeds, the parties get corresponding results. -/
def rep3Rel (R M J : Type) (ty : A2BType) (bad : Prop) : MonadRel PartyID (MPC₂ PartyID (Rep3State R) M J) (Except Err) where
  Rel Q q r := ∀ b, r = .ok b → ∀ st₀ st₁, Corr ty st₀ → Corr ty st₁ →
    Spec₂F bad q st₀ st₁ fun v s₀ s₁ => Q v b ∧ Corr ty s₀ ∧ Corr ty s₁
  pure h b hb st₀ st₁ h₀ h₁ := by
    obtain rfl := ok_inj.mp hb
    exact Spec₂F.pure ⟨h, h₀, h₁⟩
  bind h h' b hb st₀ st₁ h₀ h₁ := by
    obtain ⟨a, ha, hb⟩ := bind_ok hb
    exact Spec₂F.bind (h a ha st₀ st₁ h₀ h₁) fun v s₀ s₁ hv => h' v a hv.1 b hb s₀ s₁ hv.2.1 hv.2.2
  mono h hq b hb st₀ st₁ h₀ h₁ := (h b hb st₀ st₁ h₀ h₁).mono fun v s₀ s₁ hv => ⟨hq _ _ hv.1, hv.2⟩

/-- A call on the first network. -/
theorem rep3Rel_first {α β : Type} {bad : Prop} {Q : (PartyID → α) → β → Prop} {q : PartyID → Rep3M R M α} {r : Except Err β}
    (h : ∀ b, r = .ok b → ∀ st, Corr ty st → Spec q st fun v s => Q v b ∧ Corr ty s) :
    (rep3Rel R M J ty bad).Rel Q (fun i => MPC₂.first (q i)) r := by
  intro b hb st₀ st₁ h₀ h₁
  exact Spec₂F.first (specE_ok ((h b hb st₀ h₀).mono fun v s hv => ⟨hv.1, hv.2, h₁⟩))

variable [Fact p.Prime] [HasSqrt (ZMod p)] [Sample R (ZMod p)] [Codec M (List (ZMod p))]
  [Sample R (BitVec w)] [UintCodec M w] [Yao.YaoRng R] [Yao.YaoNet M] [Codec J (Share (BitVec w))]

theorem rep3_rel (ho : p % 2 = 1) (hw : modBits p + 2 ≤ w) (hH : Yao.HashSeparates (Yao.YaoNet.hash M)) :
    DriverRel (rep3Rel R M J ty (c.randomized = true)) (rep3 (R := R) (M := M) (J := J) (p := p) w) (ref p c)
      (Holds IsShare) IsShare where
  bin op _ _ _ _ hx hy b hb st₀ st₁ h₀ h₁ := spec_rep3Bin ho hw hH hx hy hb h₀ h₁
  neg hx := rep3Rel_first fun b hb st hst => spec_rep3Neg hx hb hst
  sqrt hx b hb st₀ st₁ h₀ h₁ := (spec_rep3Sqrt ho hw hx hb h₀).first h₁
  boolNot hx := rep3Rel_first fun b hb st hst => spec_rep3BoolNot hx hb hst
  cmux hc hx hy := rep3Rel_first fun b hb st hst => spec_rep3Cmux hc hx hy hb hst
  isZero allow hx := rep3Rel_first fun b hb st hst => spec_rep3IsZero ho hw hx hb hst
  isShared {x x'} hx b hb st₀ st₁ h₀ h₁ := by
    have hb' : (if x'.isArith && !c.shared then refuse else .ok x'.isArith) = Except.ok b := hb
    split at hb'
    · cases hb'
    · obtain rfl := ok_inj.mp hb'
      exact Spec₂F.pure ⟨funext fun i => isArith_of_holds hx i, h₀, h₁⟩
  toIndex hx := rep3Rel_first fun b hb st hst => spec_rep3ToIndex hx hb hst
  openV {x x'} hx := rep3Rel_first fun b hb st hst => by
    obtain rfl := ok_inj.mp (hb : .ok x'.val = Except.ok b)
    exact spec_rep3Open hx hst
  toShare {x x'} hx := rep3Rel_first fun b hb st hst => by
    obtain rfl := ok_inj.mp (hb : .ok x'.val = Except.ok b)
    exact spec_rep3ToShare hx hst
  one := rfl
  zero := rfl
  num2bits k hx := rep3Rel_first fun b hb st hst => spec_rep3Num2bits ho hw hx hb hst
  addbits hx hy := rep3Rel_first fun b hb st hst =>
    (spec_rep3Addbits ho hw hx hy hb hst).mono fun v s h => ⟨⟨h.1, h.2.1⟩, h.2.2⟩
  log leaky hx := rep3Rel_first fun b hb st hst => (spec_rep3Log hx leaky hb hst).mono fun v s h => ⟨trivial, h.2⟩
  compareConfig config := rep3Rel_first fun b hb st hst => (spec_rep3CompareConfig config hst).mono fun v s h => ⟨trivial, h⟩
  ofPub k := rfl
  fail Q q e b hb := by cases hb

end Rep3

/-! ### Drivers in the clear -/

/-- Whenever the second computation succeeds, the first one has a corresponding result. -/
def exceptRel : MonadRel Unit (Except Err) (Except Err) where
  Rel Q q r := ∀ b, r = .ok b → ∃ a, q () = .ok a ∧ Q (fun _ => a) b
  pure {_ _ _ a _} h b hb := by
    obtain rfl := ok_inj.mp hb
    exact ⟨a (), rfl, h⟩
  bind h h' b hb := by
    obtain ⟨a, ha, hb⟩ := bind_ok hb
    obtain ⟨v, hv, hQ⟩ := h a ha
    obtain ⟨u, hu, hQ'⟩ := h' _ a hQ b hb
    exact ⟨u, by beta_reduce; rw [hv]; exact hu, hQ'⟩
  mono h hq b hb := by
    obtain ⟨a, ha, hQ⟩ := h b hb
    exact ⟨a, ha, hq _ _ hQ⟩

theorem cols_self {V : Type} (l : List V) : Cols (fun (x : Unit → V) v => x () = v) (fun _ => l) l := by
  refine ⟨l.map fun v _ => v, by funext i; simp [Function.comp_def], ?_⟩
  rw [List.forall₂_map_left_iff]
  exact List.forall₂_same.mpr fun _ _ => rfl

theorem self_cols {V : Type} {x : Unit → List V} {l : List V} (h : Cols (fun (x : Unit → V) v => x () = v) x l) :
    x () = l := by
  obtain ⟨l', rfl, hl⟩ := h
  induction hl with
  | nil => rfl
  | cons h _ ih => simp only [List.map_cons, ih]; rw [h]

section Plain

variable {p : Nat} [Fact p.Prime] [HasSqrt (ZMod p)] {c : RefCfg}

/-- The value in the clear is that of the marked value. -/
def Clear (x : Unit → ZMod p) (v : RefVal p) : Prop := x () = v.val

theorem refBin_val {op : BinOp} {a b z : RefVal p} (h : refBin c op a b = .ok z) : plainBin op a.val b.val = .ok z.val := by
  by_cases hs : (a.isArith || b.isArith) = true
  · obtain ⟨-, v, hv, rfl⟩ := refBin_arith hs h
    rw [hv]
    split <;> rfl
  · cases a <;> cases b <;> simp [VmVal.isArith] at hs
    obtain ⟨v, hv, rfl⟩ := map_ok h
    exact hv

theorem refCmux_val {a t f z : RefVal p} (h : refCmux a t f = .ok z) : (plain p).cmux a.val t.val f.val = .ok z.val := by
  cases a with
  | pub a =>
    obtain ⟨_, h1, h2⟩ := bind_ok (h : assertBit a >>= (fun _ => .ok (if a = 1 then t else f)) = Except.ok z)
    obtain rfl := ok_inj.mp h2
    show (assertBit a >>= fun _ => Except.ok (if a = 1 then t.val else f.val)) = _
    rw [h1]
    by_cases h : a = 1 <;> simp [h, bind, Except.bind]
  | arith a =>
    have h' : (if IsBit a then .ok (.arith (if a = 1 then t.val else f.val)) else refuse) = Except.ok z := h
    split at h'
    · rename_i hb
      obtain rfl := ok_inj.mp h'
      have hb' : a = 1 ∨ a = 0 := hb.symm
      show (assertBit a >>= fun _ => Except.ok (if a = 1 then t.val else f.val)) = _
      simp [assertBit, VmVal.val, hb', bind, Except.bind]
    · cases h'

/-- The plain driver on programs that do not branch on secret values. -/
theorem plain_rel (hs : c.shared = false) :
    DriverRel exceptRel (plain p) (ref p c) Clear (fun x (v : ZMod p) => x () = v) where
  bin op x x' y y' hx hy b hb := ⟨_, by beta_reduce; rw [hx, hy]; exact refBin_val hb, rfl⟩
  neg {x x'} hx b hb := by
    cases x' with
    | pub v => obtain rfl := ok_inj.mp (hb : .ok (.pub (-v)) = Except.ok b); exact ⟨_, by beta_reduce; rw [hx]; rfl, rfl⟩
    | arith v => obtain rfl := ok_inj.mp (hb : .ok (.arith (-v)) = Except.ok b); exact ⟨_, by beta_reduce; rw [hx]; rfl, rfl⟩
  sqrt {x x'} hx b hb := by
    cases x' with
    | pub v =>
      obtain ⟨r, hr, rfl⟩ := map_ok (hb : VmVal.pub <$> plainSqrt v = .ok b)
      exact ⟨r, by beta_reduce; rw [hx]; exact hr, rfl⟩
    | arith v =>
      have hb' : (if c.randomized then VmVal.arith <$> plainSqrt v else refuse) = .ok b := hb
      split at hb'
      · obtain ⟨r, hr, rfl⟩ := map_ok hb'
        exact ⟨r, by beta_reduce; rw [hx]; exact hr, rfl⟩
      · cases hb'
  boolNot {x x'} hx b hb := by
    cases x' with
    | pub v =>
      obtain ⟨r, hr, rfl⟩ := map_ok (hb : VmVal.pub <$> (plain p).boolNot v = .ok b)
      exact ⟨r, by beta_reduce; rw [hx]; exact hr, rfl⟩
    | arith v =>
      have hb' : (if IsBit v then .ok (.arith (1 - v)) else refuse) = Except.ok b := hb
      split at hb'
      · rename_i hv
        obtain rfl := ok_inj.mp hb'
        have hv' : v = 1 ∨ v = 0 := hv.symm
        refine ⟨1 - v, ?_, rfl⟩
        beta_reduce; rw [hx]
        show (assertBit v >>= fun _ => Except.ok (1 - v)) = _
        simp [assertBit, hv', bind, Except.bind]
      · cases hb'
  cmux hc hx hy b hb := ⟨_, by beta_reduce; rw [hc, hx, hy]; exact refCmux_val hb, rfl⟩
  isZero {x x'} allow hx b hb := by
    have hb' : (if x'.isArith && !allow then .error (Err.err "allow_secret_inputs is false and input is shared")
      else .ok (decide (x'.val = 0))) = Except.ok b := hb
    split at hb'
    · cases hb'
    · obtain rfl := ok_inj.mp hb'
      exact ⟨_, by beta_reduce; rw [hx]; rfl, rfl⟩
  isShared {x x'} hx b hb := by
    have hb' : (if x'.isArith && !c.shared then refuse else .ok x'.isArith) = Except.ok b := hb
    cases x' with
    | pub v => obtain rfl := ok_inj.mp (hb' : .ok false = Except.ok b); exact ⟨false, rfl, rfl⟩
    | arith v => simp [hs, VmVal.isArith, refuse] at hb'
  toIndex {x x'} hx b hb := by
    cases x' with
    | pub v => exact ⟨b, by beta_reduce; rw [hx]; exact hb, rfl⟩
    | arith v => cases hb
  openV {x x'} hx b hb := by
    obtain rfl := ok_inj.mp (hb : .ok x'.val = Except.ok b)
    exact ⟨_, by beta_reduce; rw [hx]; rfl, rfl⟩
  toShare {x x'} hx b hb := by
    obtain rfl := ok_inj.mp (hb : .ok x'.val = Except.ok b)
    exact ⟨_, by beta_reduce; rw [hx]; rfl, rfl⟩
  one := rfl
  zero := rfl
  num2bits {x x'} k hx b hb := by
    cases x' with
    | pub v =>
      obtain rfl := ok_inj.mp (hb : .ok ((plainNum2bits v k).map .pub) = Except.ok b)
      refine ⟨_, by beta_reduce; rw [hx]; rfl, ?_⟩
      refine ⟨(plainNum2bits v k).map fun v _ => v, by funext i; simp [VmVal.val, Function.comp_def], ?_⟩
      rw [List.forall₂_map_left_iff, List.forall₂_map_right_iff]
      exact List.forall₂_same.mpr fun _ _ => rfl
    | arith v =>
      obtain rfl := ok_inj.mp (hb : .ok ((plainNum2bits v k).map .arith) = Except.ok b)
      refine ⟨_, by beta_reduce; rw [hx]; rfl, ?_⟩
      refine ⟨(plainNum2bits v k).map fun v _ => v, by funext i; simp [VmVal.val, Function.comp_def], ?_⟩
      rw [List.forall₂_map_left_iff, List.forall₂_map_right_iff]
      exact List.forall₂_same.mpr fun _ _ => rfl
  addbits {x x' y y'} hx hy b hb := by
    have e : ∀ {x : Unit → List (ZMod p)} {x' : List (RefVal p)}, Cols Clear x x' → x () = x'.map VmVal.val := by
      rintro x x' ⟨l, rfl, hl⟩
      induction hl with
      | nil => rfl
      | cons h _ ih => simp only [List.map_cons, ih]; rw [h]
    obtain ⟨⟨r, carry⟩, h1, h2⟩ := bind_ok hb
    obtain rfl := ok_inj.mp h2
    refine ⟨(r, carry), by beta_reduce; rw [e hx, e hy]; exact h1, ?_, rfl⟩
    refine ⟨r.map fun v _ => v, by funext i; simp [Function.comp_def], ?_⟩
    rw [List.forall₂_map_left_iff, List.forall₂_map_right_iff]
    exact List.forall₂_same.mpr fun _ _ => rfl
  log leaky hx b hb := ⟨_, rfl, trivial⟩
  compareConfig config b hb := ⟨_, rfl, trivial⟩
  ofPub k := rfl
  fail Q q e b hb := by cases hb

end Plain

/-! ### One driver and itself -/

theorem self_rel {V P A : Type} {D : Driver (Except Err) V P A} (hf : ∀ {α : Type} e, D.fail (α := α) e = .error e) :
    DriverRel exceptRel D D (fun x v => x () = v) (fun x v => x () = v) where
  bin op x x' y y' hx hy b hb := ⟨b, by subst hx hy; exact hb, rfl⟩
  neg hx b hb := ⟨b, by subst hx; exact hb, rfl⟩
  sqrt hx b hb := ⟨b, by subst hx; exact hb, rfl⟩
  boolNot hx b hb := ⟨b, by subst hx; exact hb, rfl⟩
  cmux hc hx hy b hb := ⟨b, by subst hc hx hy; exact hb, rfl⟩
  isZero allow hx b hb := ⟨b, by subst hx; exact hb, rfl⟩
  isShared hx b hb := ⟨b, by subst hx; exact hb, rfl⟩
  toIndex hx b hb := ⟨b, by subst hx; exact hb, rfl⟩
  openV hx b hb := ⟨b, by subst hx; exact hb, rfl⟩
  toShare hx b hb := ⟨b, by subst hx; exact hb, rfl⟩
  one := rfl
  zero := rfl
  num2bits k hx b hb := ⟨b, by subst hx; exact hb, cols_self b⟩
  addbits hx hy b hb := ⟨b, by rw [← self_cols hx, ← self_cols hy] at hb; exact hb, cols_self b.1, rfl⟩
  log leaky hx b hb := ⟨b, by subst hx; exact hb, trivial⟩
  compareConfig config b hb := ⟨b, hb, trivial⟩
  ofPub k := rfl
  fail Q q e b hb := by rw [hf] at hb; cases hb

end Verif.CircomVm
