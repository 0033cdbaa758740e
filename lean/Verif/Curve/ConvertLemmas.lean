import Verif.Curve.Convert
import Verif.Rep3.InjectLemmas
import Verif.Rep3.PointLemmas

/-!
# Lemmas: conversions between shared points and shared coordinates
-/

namespace Verif

/-- The one result of a program that delivers. -/
theorem Spec.exact {ι S M E α : Type} [DecidableEq ι] {p : ι → MPC ι S M E α} {st : ι → S}
    {Q : (ι → α) → (ι → S) → Prop} (h : Spec p st Q) :
    ∃ v s, Q v s ∧ Spec p st (fun v' s' => v' = v ∧ s' = s) := by
  obtain ⟨v, l, h, hQ⟩ := h
  exact ⟨_, _, hQ, ⟨v, l, h, rfl, rfl⟩⟩

namespace Rep3.Curve

open PartyID

variable {R M : Type} {p w : Nat} [Fact p.Prime] {a b : ZMod p} {ty : A2BType}
variable {st : PartyID → Rep3State R}

section Geometry

/-- Slope formula for points with different x-coordinates. -/
theorem add_coords {P Q : Pt a b} {x₁ y₁ x₂ y₂ : ZMod p} (hP : HasCoords P x₁ y₁)
    (hQ : HasCoords Q x₂ y₂) (hx : x₁ ≠ x₂) :
    HasCoords (P + Q) (((y₂ - y₁) * (x₂ - x₁)⁻¹) ^ 2 - x₁ - x₂)
      (((y₂ - y₁) * (x₂ - x₁)⁻¹) * (x₁ - (((y₂ - y₁) * (x₂ - x₁)⁻¹) ^ 2 - x₁ - x₂)) - y₁) := by
  obtain ⟨h1, rfl⟩ := hP
  obtain ⟨h2, rfl⟩ := hQ
  have hs : (curve a b).slope x₁ x₂ y₁ y₂ = (y₂ - y₁) * (x₂ - x₁)⁻¹ := by
    rw [WeierstrassCurve.Affine.slope_of_X_ne hx, ← div_eq_mul_inv, ← neg_div_neg_eq]
    congr 1 <;> ring
  rw [WeierstrassCurve.Affine.Point.add_of_X_ne hx]
  have ex : (curve a b).addX x₁ x₂ ((curve a b).slope x₁ x₂ y₁ y₂) =
      ((y₂ - y₁) * (x₂ - x₁)⁻¹) ^ 2 - x₁ - x₂ := by
    rw [hs]; simp [WeierstrassCurve.Affine.addX, curve]
  have ey : (curve a b).addY x₁ x₂ y₁ ((curve a b).slope x₁ x₂ y₁ y₂) =
      ((y₂ - y₁) * (x₂ - x₁)⁻¹) * (x₁ - (((y₂ - y₁) * (x₂ - x₁)⁻¹) ^ 2 - x₁ - x₂)) - y₁ := by
    rw [hs]; simp [WeierstrassCurve.Affine.addY, WeierstrassCurve.Affine.negAddY,
      WeierstrassCurve.Affine.negY, WeierstrassCurve.Affine.addX, curve]
    ring
  unfold HasCoords
  rw [← ey, ← ex]
  exact ⟨_, rfl⟩

theorem hasCoords_ne_zero {P : Pt a b} {x y : ZMod p} (h : HasCoords P x y) : P ≠ 0 := by
  obtain ⟨h, rfl⟩ := h
  exact WeierstrassCurve.Affine.Point.some_ne_zero h

theorem exists_coords {P : Pt a b} (h : P ≠ 0) : ∃ x y, HasCoords P x y ∧ xy P = some (x, y) := by
  cases P with
  | zero => exact absurd rfl h
  | some x y hn => exact ⟨x, y, ⟨hn, rfl⟩, rfl⟩

theorem _root_.Verif.HasCoords.xy_eq {P : Pt a b} {x y : ZMod p} (h : HasCoords P x y) : xy P = some (x, y) := by
  obtain ⟨h, rfl⟩ := h; rfl

theorem _root_.Verif.HasCoords.inj {P : Pt a b} {x y x' y' : ZMod p} (h : HasCoords P x y)
    (h' : HasCoords P x' y') : x = x' ∧ y = y' := by
  have := h.xy_eq.symm.trans h'.xy_eq
  simpa using this

/-- Points with the same x-coordinate are equal or opposite. -/
theorem eq_or_neg {P Q : Pt a b} {x y₁ y₂ : ZMod p} (hP : HasCoords P x y₁) (hQ : HasCoords Q x y₂) :
    P = Q ∨ P + Q = 0 := by
  obtain ⟨h1, rfl⟩ := hP
  obtain ⟨h2, rfl⟩ := hQ
  by_cases hy : y₁ = (curve a b).negY x y₂
  · exact Or.inr (WeierstrassCurve.Affine.Point.add_of_Y_eq rfl hy)
  · left
    have := WeierstrassCurve.Affine.Y_eq_of_Y_ne h1.1 h2.1 rfl hy
    subst this; rfl

/-- For points that are not equal, equal x-coordinates mean that the sum is zero. -/
theorem x_eq_iff {P Q : Pt a b} {x₁ y₁ x₂ y₂ : ZMod p} (hP : HasCoords P x₁ y₁)
    (hQ : HasCoords Q x₂ y₂) (hne : P ≠ Q) : x₁ = x₂ ↔ P + Q = 0 := by
  constructor
  · rintro rfl
    exact (eq_or_neg hP hQ).resolve_left hne
  · intro h
    by_contra hx
    exact hasCoords_ne_zero (add_coords hP hQ hx) h

end Geometry

variable [Sample R (ZMod p)] [Codec M (List (ZMod p))]

/-- The coordinates that stand for a point in the code: zeros for the point at infinity. -/
def coordX (P : Pt a b) : ZMod p := match xy P with | some (x, _) => x | none => 0
def coordY (P : Pt a b) : ZMod p := match xy P with | some (_, y) => y | none => 0

theorem _root_.Verif.HasCoords.coord {P : Pt a b} {x y : ZMod p} (h : HasCoords P x y) :
    coordX P = x ∧ coordY P = y := by simp [coordX, coordY, h.xy_eq]

theorem maskedCoords_eq (P : Pt a b) (rx ry : ZMod p) :
    maskedCoords P rx ry = (rx + coordX P, ry + coordY P) := by
  simp only [maskedCoords, coordX, coordY]
  cases h : xy P with
  | none => simp
  | some v => simp [add_comm]

theorem preOwn_eq (i : PartyID) (x : Share (Pt a b)) (rx ry : ZMod p) :
    preOwn i x rx ry = (rx + (if i = ID1 then coordX (x.a + x.b) else 0),
      ry + (if i = ID1 then coordY (x.a + x.b) else 0)) := by
  cases i <;> simp [preOwn, maskedCoords_eq]

theorem preOther_eq (i : PartyID) (x : Share (Pt a b)) :
    preOther i x = ((⟨if i = ID2 then coordX x.a else 0, if i = ID0 then coordX x.b else 0⟩ : Share (ZMod p)),
      (⟨if i = ID2 then coordY x.a else 0, if i = ID0 then coordY x.b else 0⟩ : Share (ZMod p))) := by
  cases i
  · simp only [preOther, coordX, coordY]
    cases h : xy x.b with
    | none => simp [Share.zeroShare]
    | some v => simp
  · simp [preOther, Share.zeroShare]
  · simp only [preOther, coordX, coordY]
    cases h : xy x.a with
    | none => simp [Share.zeroShare]
    | some v => simp

theorem spec_pre {x : PartyID → Share (Pt a b)} {P : Pt a b} (hx : IsShare x P)
    (hnz : ∀ i, (x i).a ≠ 0) (hst : Corr ty st) :
    Spec (M := M) (fun i => pre (x i)) st (fun r st' =>
      IsShare (fun i => (r i).1) (coordX ((x ID0).a + (x ID1).a)) ∧
      IsShare (fun i => (r i).2.1) (coordY ((x ID0).a + (x ID1).a)) ∧
      IsShare (fun i => (r i).2.2.1) (coordX (x ID2).a) ∧
      IsShare (fun i => (r i).2.2.2) (coordY (x ID2).a) ∧ Corr ty st') := by
  have hc : ∀ i, ¬ ((x i).a = 0 ∨ (x i).b = 0) := by
    intro i
    rw [hx.1 i]
    exact fun h => h.elim (hnz i) (hnz i.prev)
  simp only [pre, hc, if_false]
  refine Spec.bind (spec_maskElem hst) ?_
  rintro rx st1 ⟨hrx, hst1⟩
  refine Spec.bind (spec_maskElem hst1) ?_
  rintro ry st2 ⟨hry, hst2⟩
  refine Spec.bind (spec_stateId hst2) ?_
  rintro _ _ ⟨rfl, rfl⟩
  refine Spec.bind spec_reshareMany ?_
  rintro _ _ ⟨rfl, rfl⟩
  refine Spec.pure ⟨?_, ?_, ?_, ?_, hst2⟩
  · refine isShare_mk (x := fun i => (preOwn i (x i) (rx i) (ry i)).1) ?_
    simp only [preOwn_eq, hx.b1]
    simp
    rw [add_comm (x ID1).a]
    linear_combination hrx
  · refine isShare_mk (x := fun i => (preOwn i (x i) (rx i) (ry i)).2) ?_
    simp only [preOwn_eq, hx.b1]
    simp
    rw [add_comm (x ID1).a]
    linear_combination hry
  · rw [isShare_iff]; simp [preOther_eq, hx.b0]
  · rw [isShare_iff]; simp [preOther_eq, hx.b0]

section Addition

variable [Sample R (BitVec w)] [UintCodec M w] [Yao.YaoRng R] [Yao.YaoNet M]

theorem spec_eq {x y : PartyID → Share (ZMod p)} {u v : ZMod p} (hw : modBits p + 2 ≤ w) (ho : ty = .yao → p % 2 = 1)
    (hx : IsShare x u) (hy : IsShare y v) (hst : Corr ty st) :
    Spec (M := M) (fun i => eq w (x i) (y i)) st (fun r st' =>
      IsShare r (if u = v then (1 : ZMod p) else 0) ∧ Corr ty st') := by
  refine Spec.bind (spec_eqBit hw ho hx hy hst) ?_
  rintro r st' ⟨hr, hst'⟩
  refine (spec_bitInject (by omega) hr hst').mono ?_
  rintro r st'' ⟨hr, hst''⟩
  refine ⟨?_, hst''⟩
  by_cases h : u = v <;> simpa [h, bitVal] using hr

theorem spec_diffOrOne {ax bx : PartyID → Share (ZMod p)} {x₁ x₂ : ZMod p} (hw : modBits p + 2 ≤ w) (ho : ty = .yao → p % 2 = 1)
    (ha : IsShare ax x₁) (hb : IsShare bx x₂) (hst : Corr ty st) :
    Spec (M := M) (fun i => diffOrOne w (ax i) (bx i)) st (fun r st' =>
      IsShare (fun i => (r i).1) (if x₁ = x₂ then 1 else x₂ - x₁) ∧
      IsShare (fun i => (r i).2) (if x₁ = x₂ then (1 : ZMod p) else 0) ∧ Corr ty st') := by
  refine Spec.bind (spec_eq hw ho IsShare.zero (hb.sub ha) hst) ?_
  rintro z st1 ⟨hz, hst1⟩
  refine Spec.bind (spec_stateId hst1) ?_
  rintro _ _ ⟨rfl, rfl⟩
  refine Spec.bind (spec_mul ((hb.sub ha).neg.addPublic 1) hz hst1) ?_
  rintro m st2 ⟨hm, hst2⟩
  refine Spec.pure ⟨?_, ?_, hst2⟩
  · have := (hb.sub ha).add hm
    by_cases h : x₁ = x₂
    · simpa [h, add, sub] using this
    · have h' : ¬ (0 = x₂ - x₁) := fun e => h (sub_eq_zero.1 e.symm).symm
      simpa [h, h', add, sub] using this
  · by_cases h : x₁ = x₂
    · simpa [h] using hz
    · have h' : ¬ (0 = x₂ - x₁) := fun e => h (sub_eq_zero.1 e.symm).symm
      simpa [h, h'] using hz

/-- What the addition formula returns for the coordinates of two points. -/
def addFormula (x₁ y₁ x₂ y₂ : ZMod p) : ZMod p × ZMod p × ZMod p :=
  let l := (y₂ - y₁) * (if x₁ = x₂ then 1 else x₂ - x₁)⁻¹
  (l ^ 2 - x₁ - x₂, l * (x₁ - (l ^ 2 - x₁ - x₂)) - y₁, if x₁ = x₂ then 1 else 0)

theorem spec_pointAddition {ax ay bx by' : PartyID → Share (ZMod p)} {x₁ y₁ x₂ y₂ : ZMod p}
    (hw : modBits p + 2 ≤ w) (ho : ty = .yao → p % 2 = 1) (hax : IsShare ax x₁) (hay : IsShare ay y₁) (hbx : IsShare bx x₂)
    (hby : IsShare by' y₂) (hst : Corr ty st) :
    SpecE (M := M) (fun i => pointAddition w (ax i) (ay i) (bx i) (by' i)) st
      (AllOrNone (Spec (M := M) (fun i => diffOrOne w (ax i) (bx i)) st
          (fun _ s => randValue (ZMod p) s = 0))
        (fun r st' => IsShare (fun i => (r i).1) (addFormula x₁ y₁ x₂ y₂).1 ∧
          IsShare (fun i => (r i).2.1) (addFormula x₁ y₁ x₂ y₂).2.1 ∧
          IsShare (fun i => (r i).2.2) (addFormula x₁ y₁ x₂ y₂).2.2 ∧ Corr ty st')) := by
  obtain ⟨d, s1, ⟨hd, hz, hst1⟩, hrun⟩ := (spec_diffOrOne (M := M) hw ho hax hbx hst).exact
  refine SpecE.bind hrun ?_
  rintro _ _ ⟨rfl, rfl⟩
  have hd0 : (if x₁ = x₂ then 1 else x₂ - x₁) ≠ 0 := by
    by_cases h : x₁ = x₂
    · simp [h]
    · simpa [h] using sub_ne_zero.2 (Ne.symm h)
  refine SpecE.bindAll (spec_inv hd hst1) ?_ ?_
  · rintro i st2 ⟨-, hi, hst2⟩
    refine SpecE.mono (Spec.specE (Q := fun r st' =>
        IsShare (fun i => (r i).1) (addFormula x₁ y₁ x₂ y₂).1 ∧
          IsShare (fun i => (r i).2.1) (addFormula x₁ y₁ x₂ y₂).2.1 ∧
          IsShare (fun i => (r i).2.2) (addFormula x₁ y₁ x₂ y₂).2.2 ∧ Corr ty st') ?_)
        (fun r h => Or.inr h)
    refine Spec.bind (spec_mul (hby.sub hay) hi hst2) ?_
    rintro l st3 ⟨hl, hst3⟩
    refine Spec.bind (spec_mul hl hl hst3) ?_
    rintro l2 st4 ⟨hl2, hst4⟩
    refine Spec.bind (spec_mul hl (hax.sub ((hl2.sub hax).sub hbx)) hst4) ?_
    rintro y st5 ⟨hy, hst5⟩
    refine Spec.pure ⟨?_, ?_, hz, hst5⟩
    · simpa [addFormula, pow_two, sub] using (hl2.sub hax).sub hbx
    · simpa [addFormula, pow_two, sub] using hy.sub hay
  · rintro e hbad
    refine Or.inl ⟨e, fun _ => rfl, hrun.mono ?_⟩
    rintro _ _ ⟨rfl, rfl⟩
    exact (mul_eq_zero.1 hbad).resolve_left hd0

/-- The formula computes the sum, for points that are neither zero nor equal. -/
theorem addFormula_spec {S Q : Pt a b} (hS : S ≠ 0) (hQ : Q ≠ 0) (hne : S ≠ Q) :
    (S + Q ≠ 0 → HasCoords (S + Q) (addFormula (coordX S) (coordY S) (coordX Q) (coordY Q)).1
      (addFormula (coordX S) (coordY S) (coordX Q) (coordY Q)).2.1) ∧
    (addFormula (coordX S) (coordY S) (coordX Q) (coordY Q)).2.2 = if S + Q = 0 then 1 else 0 := by
  obtain ⟨x₁, y₁, h1, e1⟩ := exists_coords hS
  obtain ⟨x₂, y₂, h2, e2⟩ := exists_coords hQ
  rw [h1.coord.1, h1.coord.2, h2.coord.1, h2.coord.2]
  have hiff := x_eq_iff h1 h2 hne
  refine ⟨fun h0 => ?_, ?_⟩
  · have hx : x₁ ≠ x₂ := fun h => h0 (hiff.1 h)
    simpa [addFormula, hx] using add_coords h1 h2 hx
  · by_cases h : x₁ = x₂
    · simp [addFormula, h, hiff.1 h]
    · have h' : ¬ S + Q = 0 := fun h' => h (hiff.2 h')
      simp [addFormula, h, h']

/-- Equal points are taken for opposite ones. -/
theorem addFormula_self (S : Pt a b) :
    (addFormula (coordX S) (coordY S) (coordX S) (coordY S)).2.2 = 1 := by simp [addFormula]

/-- What the conversion delivers, without conditions on the components. -/
theorem spec_toFields {x : PartyID → Share (Pt a b)} {P : Pt a b} (hw : modBits p + 2 ≤ w) (ho : ty = .yao → p % 2 = 1)
    (hx : IsShare x P) (hnz : ∀ i, (x i).a ≠ 0) (hst : Corr ty st) :
    SpecE (M := M) (fun i => pointShareToFieldshares w (x i)) st
      (AllOrNone (Spec (M := M) (fun i => pre (x i) >>= fun v => diffOrOne w v.1 v.2.2.1) st
          (fun _ s => randValue (ZMod p) s = 0))
        (fun r st' =>
          IsShare (fun i => (r i).1) (addFormula (coordX ((x ID0).a + (x ID1).a))
            (coordY ((x ID0).a + (x ID1).a)) (coordX (x ID2).a) (coordY (x ID2).a)).1 ∧
          IsShare (fun i => (r i).2.1) (addFormula (coordX ((x ID0).a + (x ID1).a))
            (coordY ((x ID0).a + (x ID1).a)) (coordX (x ID2).a) (coordY (x ID2).a)).2.1 ∧
          IsShare (fun i => (r i).2.2) (addFormula (coordX ((x ID0).a + (x ID1).a))
            (coordY ((x ID0).a + (x ID1).a)) (coordX (x ID2).a) (coordY (x ID2).a)).2.2 ∧
          Corr ty st')) := by
  obtain ⟨v, s1, ⟨h1, h2, h3, h4, hst1⟩, hrun⟩ := (spec_pre (M := M) hx hnz hst).exact
  refine SpecE.bind hrun ?_
  rintro _ _ ⟨rfl, rfl⟩
  refine (spec_pointAddition hw ho h1 h2 h3 h4 hst1).mono ?_
  rintro r (⟨e, he, hbad⟩ | h)
  · refine Or.inl ⟨e, he, Spec.bind hrun ?_⟩
    rintro _ _ ⟨rfl, rfl⟩
    exact hbad
  · exact Or.inr h

theorem ne_zero_bit (hw : 0 < w) {u : BitVec w} (h : u.toNat < 2) :
    decide (u ≠ 0#w) = u.getLsbD 0 := by
  have hu : u.toNat = 0 ∨ u.toNat = 1 := by omega
  rcases hu with hu | hu
  · have : u = 0#w := BitVec.eq_of_toNat_eq (by simpa using hu)
    simp [this]
  · have : u ≠ 0#w := fun h => by simp [h] at hu
    simp [this, BitVec.getLsbD, hu]

theorem bits_xor (hw : 0 < w) {r : PartyID → Share (BitVec w)} {v : Bool} (hr : IsBitShare r v) :
    (decide ((r ID0).a ≠ 0#w) ^^ decide ((r ID1).a ≠ 0#w) ^^ decide ((r ID2).a ≠ 0#w)) = v := by
  rw [ne_zero_bit hw (hr.2 _).1, ne_zero_bit hw (hr.2 _).1, ne_zero_bit hw (hr.2 _).1]
  have := congrArg (fun u => u.getLsbD 0) hr.1.2
  simp only [BitVec.getLsbD_xor] at this
  rw [this]
  cases v <;> simp [hw]

theorem spec_isZero {x : PartyID → Share (Pt a b)} {P : Pt a b} (hw : modBits p + 2 ≤ w) (ho : ty = .yao → p % 2 = 1)
    (hx : IsShare x P) (hnz : ∀ i, (x i).a ≠ 0) (hst : Corr ty st) :
    Spec (M := M) (fun i => isZero w (x i)) st (fun r st' =>
      (∀ i, (r i).2 = (r i.prev).1) ∧
      ((r ID0).1 ^^ (r ID1).1 ^^ (r ID2).1) =
        decide (coordX ((x ID0).a + (x ID1).a) = coordX (x ID2).a) ∧ Corr ty st') := by
  refine Spec.bind (spec_pre hx hnz hst) ?_
  rintro v st1 ⟨h1, h2, h3, h4, hst1⟩
  refine Spec.bind (spec_eqBit hw ho h1 h3 hst1) ?_
  rintro r st2 ⟨hr, hst2⟩
  refine Spec.pure ⟨?_, ?_, hst2⟩
  · intro i; simp [hr.1.1 i]
  · exact bits_xor (by omega) hr

section Many

variable [SampleVec R (ZMod p)]

omit [Yao.YaoRng R] [Yao.YaoNet M] in
theorem spec_eqMany {x y : PartyID → List (Share (ZMod p))} {us vs : List (ZMod p)}
    (hw : modBits p + 2 ≤ w) (hx : IsShares x us) (hy : IsShares y vs) (hl : us.length = vs.length)
    (hst : Corr ty st) :
    Spec (M := M) (fun i => eqMany w (x i) (y i)) st (fun r st' =>
      IsShares r (List.zipWith (fun u v => if u = v then (1 : ZMod p) else 0) us vs) ∧ Corr ty st') := by
  have hl' : ∀ i, (x i).length = (y i).length := fun i => by
    rw [Cols.length hx i, Cols.length hy i, hl]
  simp only [eqMany, hl', ne_eq, not_true_eq_false, if_false]
  refine Spec.bind (spec_eqBitMany hw hx hy hl hst) ?_
  rintro r st' ⟨hr, hst'⟩
  refine (spec_bitInjectMany (by omega) hr hst').mono ?_
  rintro r st'' ⟨hr, hst''⟩
  refine ⟨?_, hst''⟩
  convert hr using 1
  rw [List.map_zipWith]
  congr 1
  funext u v
  by_cases h : u = v <;> simp [h, bitVal]

theorem zipWith_maps {α β γ δ : Type} (f : β → γ → δ) (g : α → β) (h : α → γ) (l : List α) :
    List.zipWith f (l.map g) (l.map h) = l.map fun v => f (g v) (h v) := by
  rw [List.zipWith_map, List.zipWith_self]

theorem isShares_sub {x y : PartyID → List (Share (ZMod p))} {us vs : List (ZMod p)}
    (hx : IsShares x us) (hy : IsShares y vs) :
    IsShares (fun i => List.zipWith sub (x i) (y i)) (List.zipWith (· - ·) us vs) :=
  Cols.zipWith hx hy fun _ _ _ _ h h' => h.sub h'

theorem isShares_add {x y : PartyID → List (Share (ZMod p))} {us vs : List (ZMod p)}
    (hx : IsShares x us) (hy : IsShares y vs) :
    IsShares (fun i => List.zipWith add (x i) (y i)) (List.zipWith (· + ·) us vs) :=
  Cols.zipWith hx hy fun _ _ _ _ h h' => h.add h'

theorem spec_diffOrOneMany {ax bx : PartyID → List (Share (ZMod p))} {vs : List (ZMod p × ZMod p)}
    (hw : modBits p + 2 ≤ w) (ha : IsShares ax (vs.map Prod.fst)) (hb : IsShares bx (vs.map Prod.snd))
    (hst : Corr ty st) :
    Spec (M := M) (fun i => diffOrOneMany w (ax i) (bx i)) st (fun r st' =>
      IsShares (fun i => (r i).1) (vs.map fun v => if v.1 = v.2 then 1 else v.2 - v.1) ∧
      IsShares (fun i => (r i).2) (vs.map fun v => if v.1 = v.2 then (1 : ZMod p) else 0) ∧
      Corr ty st') := by
  have hd : IsShares (fun i => List.zipWith sub (bx i) (ax i)) (vs.map fun v => v.2 - v.1) := by
    have := isShares_sub hb ha
    rwa [zipWith_maps] at this
  have hlen : ∀ i, (List.zipWith sub (bx i) (ax i)).length = vs.length := fun i => by
    rw [Cols.length hd i, List.length_map]
  have hz0 : IsShares (fun i => List.replicate (List.zipWith sub (bx i) (ax i)).length
      (Share.zeroShare : Share (ZMod p))) (vs.map fun _ => 0) := by
    simp only [hlen]
    rw [List.map_const']
    exact Cols.replicate _ IsShare.zero
  refine Spec.bind (spec_eqMany hw hz0 hd (by simp) hst) ?_
  rintro z st1 ⟨hz, hst1⟩
  rw [zipWith_maps] at hz
  refine Spec.bind (spec_stateId hst1) ?_
  rintro _ _ ⟨rfl, rfl⟩
  have ht : IsShares (fun i => (List.zipWith sub (bx i) (ax i)).map fun d => subPublicByShared 1 d i)
      (vs.map fun v => -(v.2 - v.1) + 1) := by
    have := Cols.map (Q := IsShare) (f := fun i d => subPublicByShared (1 : ZMod p) d i)
      (g := fun d => -d + 1) hd (fun x v h => h.neg.addPublic 1)
    rwa [List.map_map] at this
  refine Spec.bind (spec_mulVec ht hz hst1) ?_
  rintro m st2 ⟨hm, hst2⟩
  rw [zipWith_maps] at hm
  have hiff : ∀ v : ZMod p × ZMod p, (0 = v.2 - v.1) ↔ v.1 = v.2 := fun v =>
    ⟨fun e => (sub_eq_zero.1 e.symm).symm, fun e => by rw [e, sub_self]⟩
  refine Spec.pure ⟨?_, ?_, hst2⟩
  · have := isShares_add hd hm
    rw [zipWith_maps] at this
    convert this using 2
    funext v
    by_cases h : v.1 = v.2
    · simp [h]
    · have h' : ¬ (0 = v.2 - v.1) := fun e => h ((hiff v).1 e)
      simp [h, h']
  · convert hz using 2
    funext v
    simp only [hiff]

theorem zero_mem_zipWith_mul {us vs : List (ZMod p)} (h : ∀ u ∈ us, u ≠ 0)
    (h0 : 0 ∈ List.zipWith (· * ·) us vs) : 0 ∈ vs := by
  induction us generalizing vs with
  | nil => simp at h0
  | cons u us ih =>
    cases vs with
    | nil => simp at h0
    | cons v vs =>
      simp only [List.zipWith_cons_cons, List.mem_cons] at h0 ⊢
      rcases h0 with h0 | h0
      · exact Or.inl ((mul_eq_zero.1 h0.symm).resolve_left (h u (by simp))).symm
      · exact Or.inr (ih (fun u hu => h u (by simp [hu])) h0)

theorem spec_pointAdditionMany {ax ay bx by' : PartyID → List (Share (ZMod p))}
    {vs : List ((ZMod p × ZMod p) × (ZMod p × ZMod p))}
    (hw : modBits p + 2 ≤ w) (hax : IsShares ax (vs.map fun v => v.1.1))
    (hay : IsShares ay (vs.map fun v => v.1.2)) (hbx : IsShares bx (vs.map fun v => v.2.1))
    (hby : IsShares by' (vs.map fun v => v.2.2)) (hst : Corr ty st) :
    SpecE (M := M) (fun i => pointAdditionMany w (ax i) (ay i) (bx i) (by' i)) st
      (AllOrNone (Spec (M := M) (fun i => diffOrOneMany w (ax i) (bx i)) st
          (fun _ s => 0 ∈ randValues (ZMod p) vs.length s))
        (fun r st' =>
          IsShares (fun i => (r i).1) (vs.map fun v => (addFormula v.1.1 v.1.2 v.2.1 v.2.2).1) ∧
          IsShares (fun i => (r i).2.1) (vs.map fun v => (addFormula v.1.1 v.1.2 v.2.1 v.2.2).2.1) ∧
          IsShares (fun i => (r i).2.2) (vs.map fun v => (addFormula v.1.1 v.1.2 v.2.1 v.2.2).2.2) ∧
          Corr ty st')) := by
  have h := spec_diffOrOneMany (M := M) (vs := vs.map fun v => (v.1.1, v.2.1)) hw
    (by simpa [List.map_map, Function.comp_def] using hax)
    (by simpa [List.map_map, Function.comp_def] using hbx) hst
  simp only [List.map_map, Function.comp_def] at h
  obtain ⟨d, s1, ⟨hd, hz, hst1⟩, hrun⟩ := h.exact
  refine SpecE.bind hrun ?_
  rintro _ _ ⟨rfl, rfl⟩
  refine SpecE.bindAll (spec_invVec hd hst1) ?_ ?_
  · rintro i st2 ⟨-, hi, hst2⟩
    rw [List.map_map] at hi
    refine SpecE.mono (Spec.specE (Q := fun r st' =>
          IsShares (fun i => (r i).1) (vs.map fun v => (addFormula v.1.1 v.1.2 v.2.1 v.2.2).1) ∧
          IsShares (fun i => (r i).2.1) (vs.map fun v => (addFormula v.1.1 v.1.2 v.2.1 v.2.2).2.1) ∧
          IsShares (fun i => (r i).2.2) (vs.map fun v => (addFormula v.1.1 v.1.2 v.2.1 v.2.2).2.2) ∧
          Corr ty st') ?_)
        (fun r h => Or.inr h)
    have hdy := isShares_sub hby hay
    rw [zipWith_maps] at hdy
    refine Spec.bind (spec_mulVec hdy hi hst2) ?_
    rintro l st3 ⟨hl, hst3⟩
    rw [zipWith_maps] at hl
    refine Spec.bind (spec_mulVec hl hl hst3) ?_
    rintro l2 st4 ⟨hl2, hst4⟩
    rw [zipWith_maps] at hl2
    have hX := isShares_sub (isShares_sub hl2 hax) hbx
    rw [zipWith_maps, zipWith_maps] at hX
    have hXd := isShares_sub hax hX
    rw [zipWith_maps] at hXd
    refine Spec.bind (spec_mulVec hl hXd hst4) ?_
    rintro y st5 ⟨hy, hst5⟩
    rw [zipWith_maps] at hy
    have hY := isShares_sub hy hay
    rw [zipWith_maps] at hY
    refine Spec.pure ⟨?_, ?_, hz, hst5⟩
    · simpa [addFormula, pow_two] using hX
    · simpa [addFormula, pow_two] using hY
  · rintro e hbad
    refine Or.inl ⟨e, fun _ => rfl, hrun.mono ?_⟩
    rintro _ _ ⟨rfl, rfl⟩
    refine zero_mem_zipWith_mul ?_ (by simpa using hbad)
    intro u hu
    obtain ⟨v, -, rfl⟩ := List.mem_map.1 hu
    by_cases h : v.1.1 = v.2.1
    · simp [h]
    · simpa [h] using sub_ne_zero.2 (Ne.symm h)

omit [Yao.YaoRng R] [Yao.YaoNet M] in
theorem spec_preMany {l : List (PartyID → Share (Pt a b))} (hl : ∀ x ∈ l, ∃ P, IsShare x P)
    (hnz : ∀ x ∈ l, ∀ i, (x i).a ≠ 0) (hst : Corr ty st) :
    Spec (M := M) (fun i => preMany (l.map (· i))) st (fun r st' =>
      IsShares (fun i => (r i).1) (l.map fun x => coordX ((x ID0).a + (x ID1).a)) ∧
      IsShares (fun i => (r i).2.1) (l.map fun x => coordY ((x ID0).a + (x ID1).a)) ∧
      IsShares (fun i => (r i).2.2.1) (l.map fun x => coordX (x ID2).a) ∧
      IsShares (fun i => (r i).2.2.2) (l.map fun x => coordY (x ID2).a) ∧ Corr ty st') := by
  have hc : ∀ i, (l.map (· i)).all (fun s => !(decide (s.a = 0) || decide (s.b = 0))) = true := by
    intro i
    rw [List.all_eq_true]
    intro s hs
    obtain ⟨x, hx, rfl⟩ := List.mem_map.1 hs
    obtain ⟨P, hP⟩ := hl x hx
    simp [hP.1 i, hnz x hx i, hnz x hx i.prev]
  simp only [preMany, hc, not_true_eq_false, if_false]
  refine Spec.bind (spec_maskElem hst) ?_
  rintro rx st1 ⟨hrx, hst1⟩
  refine Spec.bind (spec_maskElem hst1) ?_
  rintro ry st2 ⟨hry, hst2⟩
  refine Spec.bind (spec_stateId hst2) ?_
  rintro _ _ ⟨rfl, rfl⟩
  refine Spec.bind spec_reshareMany ?_
  rintro _ _ ⟨rfl, rfl⟩
  have hlen : ∀ i : PartyID, ((List.map Prod.fst (List.map (fun s => preOwn i s (rx i) (ry i)) (l.map (· i))) ++
      List.map Prod.snd (List.map (fun s => preOwn i s (rx i) (ry i)) (l.map (· i)))).length) =
      2 * l.length := by intro i; simp; omega
  simp only [hlen, List.length_map, ne_eq, not_true_eq_false, if_false]
  refine Spec.pure ⟨?_, ?_, ?_, ?_, hst2⟩
  · refine Cols.of_get l.length (by intro i; simp) (by simp) ?_
    intro k hk
    obtain ⟨P, hP⟩ := hl l[k] (by simp)
    simp only [List.getElem_zipWith, List.getElem_map, List.getElem_take]
    rw [show (fun i => Share.mk (preOwn i (l[k] i) (rx i) (ry i)).1 _) =
      fun i => Share.mk (preOwn i (l[k] i) (rx i) (ry i)).1
        (preOwn i.prev (l[k] i.prev) (rx i.prev) (ry i.prev)).1 from by
        funext i
        rw [List.getElem_append_left (by simpa using hk)]
        simp]
    refine isShare_mk (x := fun i => (preOwn i (l[k] i) (rx i) (ry i)).1) ?_
    simp only [preOwn_eq, hP.b1]
    simp
    rw [add_comm (l[k] ID1).a]
    linear_combination hrx
  · refine Cols.of_get l.length (by intro i; simp) (by simp) ?_
    intro k hk
    obtain ⟨P, hP⟩ := hl l[k] (by simp)
    simp only [List.getElem_zipWith, List.getElem_map, List.getElem_drop]
    rw [show (fun i => Share.mk (preOwn i (l[k] i) (rx i) (ry i)).2 _) =
      fun i => Share.mk (preOwn i (l[k] i) (rx i) (ry i)).2
        (preOwn i.prev (l[k] i.prev) (rx i.prev) (ry i.prev)).2 from by
        funext i
        rw [List.getElem_append_right (by simp)]
        simp]
    refine isShare_mk (x := fun i => (preOwn i (l[k] i) (rx i) (ry i)).2) ?_
    simp only [preOwn_eq, hP.b1]
    simp
    rw [add_comm (l[k] ID1).a]
    linear_combination hry
  · refine Cols.of_get l.length (by intro i; simp) (by simp) ?_
    intro k hk
    obtain ⟨P, hP⟩ := hl l[k] (by simp)
    rw [isShare_iff]; simp [preOther_eq, hP.b0]
  · refine Cols.of_get l.length (by intro i; simp) (by simp) ?_
    intro k hk
    obtain ⟨P, hP⟩ := hl l[k] (by simp)
    rw [isShare_iff]; simp [preOther_eq, hP.b0]

/-- The four coordinates of the two halves of a shared point. -/
def halves (x : PartyID → Share (Pt a b)) : (ZMod p × ZMod p) × (ZMod p × ZMod p) :=
  ((coordX ((x ID0).a + (x ID1).a), coordY ((x ID0).a + (x ID1).a)), (coordX (x ID2).a, coordY (x ID2).a))

theorem spec_toFieldsMany {l : List (PartyID → Share (Pt a b))} (hw : modBits p + 2 ≤ w)
    (hl : ∀ x ∈ l, ∃ P, IsShare x P) (hnz : ∀ x ∈ l, ∀ i, (x i).a ≠ 0) (hst : Corr ty st) :
    SpecE (M := M) (fun i => pointShareToFieldsharesMany w (l.map (· i))) st
      (AllOrNone (Spec (M := M) (fun i => preMany (l.map (· i)) >>= fun v =>
            diffOrOneMany w v.1 v.2.2.1) st
          (fun _ s => 0 ∈ randValues (ZMod p) l.length s))
        (fun r st' =>
          IsShares (fun i => (r i).1) ((l.map halves).map fun v => (addFormula v.1.1 v.1.2 v.2.1 v.2.2).1) ∧
          IsShares (fun i => (r i).2.1) ((l.map halves).map fun v => (addFormula v.1.1 v.1.2 v.2.1 v.2.2).2.1) ∧
          IsShares (fun i => (r i).2.2) ((l.map halves).map fun v => (addFormula v.1.1 v.1.2 v.2.1 v.2.2).2.2) ∧
          Corr ty st')) := by
  obtain ⟨v, s1, ⟨h1, h2, h3, h4, hst1⟩, hrun⟩ := (spec_preMany (M := M) hl hnz hst).exact
  refine SpecE.bind hrun ?_
  rintro _ _ ⟨rfl, rfl⟩
  refine (spec_pointAdditionMany (vs := l.map halves) hw ?_ ?_ ?_ ?_ hst1).mono ?_
  · simpa [List.map_map, Function.comp_def, halves] using h1
  · simpa [List.map_map, Function.comp_def, halves] using h2
  · simpa [List.map_map, Function.comp_def, halves] using h3
  · simpa [List.map_map, Function.comp_def, halves] using h4
  rintro r (⟨e, he, hbad⟩ | h)
  · refine Or.inl ⟨e, he, Spec.bind hrun ?_⟩
    rintro _ _ ⟨rfl, rfl⟩
    simpa using hbad
  · exact Or.inr h

theorem spec_isZeroMany {l : List (PartyID → Share (Pt a b))} (hw : modBits p + 2 ≤ w)
    (hl : ∀ x ∈ l, ∃ P, IsShare x P) (hnz : ∀ x ∈ l, ∀ i, (x i).a ≠ 0) (hst : Corr ty st) :
    Spec (M := M) (fun i => isZeroMany w (l.map (· i))) st (fun r st' =>
      Cols (fun (r : PartyID → Bool × Bool) v => (∀ i, (r i).2 = (r i.prev).1) ∧
        ((r ID0).1 ^^ (r ID1).1 ^^ (r ID2).1) = v) r
        (l.map fun x => decide (coordX ((x ID0).a + (x ID1).a) = coordX (x ID2).a)) ∧ Corr ty st') := by
  refine Spec.bind (spec_preMany hl hnz hst) ?_
  rintro v st1 ⟨h1, h2, h3, h4, hst1⟩
  refine Spec.bind (spec_eqBitMany hw h1 h3 (by simp) hst1) ?_
  rintro r st2 ⟨hr, hst2⟩
  rw [zipWith_maps] at hr
  have hlen : ∀ i, (r i).length = l.length := fun i => by rw [Cols.length hr i, List.length_map]
  simp only [hlen, List.length_map, ne_eq, not_true_eq_false, if_false]
  refine Spec.pure ⟨?_, hst2⟩
  have := Cols.map (Q := fun (r : PartyID → Bool × Bool) v => (∀ i, (r i).2 = (r i.prev).1) ∧
        ((r ID0).1 ^^ (r ID1).1 ^^ (r ID2).1) = v)
    (f := fun _ (e : Share (BitVec w)) => (decide (e.a ≠ 0#w), decide (e.b ≠ 0#w))) (g := id) hr
    (fun x v h => ⟨fun i => by simp [h.1.1 i], bits_xor (by omega) h⟩)
  simpa using this

end Many

end Addition

end Rep3.Curve

end Verif
