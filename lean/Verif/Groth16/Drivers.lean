import Verif.Groth16.ProveLemmas
import Verif.Rep3.PointLemmas
import Verif.Shamir.KingLemmas

/-!
# Lemmas: the three drivers
-/

namespace Verif.Groth16

open MPC (bail panicWith)

section Row

variable {ι B A F : Type} [Field F]

/-- Evaluation of a row, one entry after the other. -/
theorem row_fold {Q : (ι → B) → F → Prop} {step : ι → B → F × Nat → Option B} {row : List (F × Nat)} {z : List F}
    {N : Nat} (h : ∀ x acc v, x.2 < N → Q acc v →
      ∃ acc', (∀ i, step i (acc i) x = some (acc' i)) ∧ Q acc' (v + x.1 * z.getD x.2 0))
    (hr : ∀ x ∈ row, x.2 < N) {acc : ι → B} {v : F} (h0 : Q acc v) :
    ∃ s, (∀ i, row.foldlM (step i) (acc i) = some (s i)) ∧ Q s (v + rowValue row z) := by
  induction row generalizing acc v with
  | nil => exact ⟨acc, fun i => rfl, by simpa [rowValue] using h0⟩
  | cons x row ih =>
    obtain ⟨acc', ha, hq⟩ := h x acc v (hr x (by simp)) h0
    obtain ⟨s, hs, hq'⟩ := ih (fun y hy => hr y (by simp [hy])) hq
    refine ⟨s, fun i => ?_, ?_⟩
    · rw [List.foldlM_cons, ha]; exact hs i
    · have e : v + rowValue (x :: row) z = v + x.1 * z.getD x.2 0 + rowValue row z := by
        simp [rowValue, add_assoc]
      rwa [e]

/-- A row whose steps add public values and shares. -/
theorem row_eval {P : (ι → A) → F → Prop} {Q : (ι → B) → F → Prop} {step : ι → B → F × Nat → Option B}
    {addPub : ι → B → F → F → B} {addWit : ι → B → A → F → B} {pub ws : List F} {wit : ι → List A}
    (hw : Cols P wit ws)
    (hstep : ∀ i acc x, step i acc x = if x.2 < pub.length then (pub[x.2]?).map (fun v => addPub i acc v x.1)
      else ((wit i)[x.2 - pub.length]?).map fun v => addWit i acc v x.1)
    (hpub : ∀ acc v c k, Q acc v → Q (fun i => addPub i (acc i) c k) (v + k * c))
    (hwit : ∀ acc v y c k, Q acc v → P y c → Q (fun i => addWit i (acc i) (y i) k) (v + k * c))
    {row : List (F × Nat)} (hr : ∀ x ∈ row, x.2 < pub.length + ws.length) {acc : ι → B} (h0 : Q acc 0) :
    ∃ s, (∀ i, row.foldlM (step i) (acc i) = some (s i)) ∧ Q s (rowValue row (pub ++ ws)) := by
  have := row_fold (Q := Q) (step := step) (z := pub ++ ws) (N := pub.length + ws.length) (row := row) ?_ hr h0
  · simpa using this
  · rintro ⟨k, j⟩ acc v hj hq
    simp only at hj
    by_cases hp : j < pub.length
    · refine ⟨fun i => addPub i (acc i) pub[j] k, fun i => ?_, ?_⟩
      · rw [hstep]; simp [hp]
      · have e : (pub ++ ws).getD j 0 = pub[j] := by
          rw [List.getD_eq_getElem?_getD, List.getElem?_append_left hp, List.getElem?_eq_getElem hp]; rfl
        simp only [e]
        exact hpub acc v _ k hq
    · have hj' : j - pub.length < ws.length := by omega
      obtain ⟨y, hy, hP⟩ := hw.get (List.getElem?_eq_getElem hj')
      refine ⟨fun i => addWit i (acc i) (y i) k, fun i => ?_, ?_⟩
      · rw [hstep]; simp [hp, hy]
      · have e : (pub ++ ws).getD j 0 = ws[j - pub.length] := by
          rw [List.getD_eq_getElem?_getD, List.getElem?_append_right (by omega), List.getElem?_eq_getElem hj']; rfl
        simp only [e]
        exact hwit acc v y _ k hq hP

end Row

section Plain

variable {R M F G₁ G₂ : Type} [Field F] [AddCommGroup G₁] [Module F G₁] [AddCommGroup G₂] [Module F G₂]
  [Sample R F]

/-- The relation between the value of the only party and the value. -/
abbrev Clear {α : Type} (x : Unit → α) (v : α) : Prop := x = fun _ => v

theorem plainDriver_spec : DriverSpec (plainDriver (R := R) (M := M) (F := F) (G₁ := G₁) (G₂ := G₂))
    (fun _ => True) Clear Clear Clear Clear (fun _ st st' => st' = st)
    (fun st v st' => (v, st' ()) = Sample.sample (st ())) := by
  have hev : ∀ (row : List (F × Nat)) (pub : List F) (wit : Unit → List F) (ws : List F), Cols Clear wit ws →
      (∀ x ∈ row, x.2 < pub.length + ws.length) →
      ∃ s, (∀ i, plainEvaluate row pub (wit i) = some (s i)) ∧ Clear s (rowValue row (pub ++ ws)) := by
    intro row pub wit ws hw hr
    refine row_eval (P := Clear) (Q := Clear) (addPub := fun _ acc c k => acc + k * c)
      (addWit := fun _ acc c k => acc + k * c) hw ?_ ?_ ?_ hr (acc := fun _ => 0) rfl
    · rintro i acc ⟨k, j⟩
      simp only
      split
      · cases pub[j]? <;> rfl
      · cases (wit i)[j - pub.length]? <;> rfl
    · rintro acc v c k rfl; rfl
    · rintro acc v y c k rfl rfl; rfl
  refine {
    zero := rfl
    add := by rintro x y v w rfl rfl; rfl
    smul := by rintro c x v rfl; rfl
    hzero := rfl
    hadd := by rintro x y v w rfl rfl; rfl
    hsub := by rintro x y v w rfl rfl; rfl
    hsmul := by rintro c x v rfl; rfl
    zero1 := rfl
    add1 := by rintro x y v w rfl rfl; rfl
    sub1 := by rintro x y v w rfl rfl; rfl
    point1 := by rintro x v Q rfl; rfl
    zero2 := rfl
    add2 := by rintro x y v w rfl rfl; rfl
    point2 := by rintro x v Q rfl; rfl
    evaluate := hev
    evaluateHalf := hev
    promote := fun vs => cols_const vs
    localMulVec := ?_
    distribute := ?_
    addPublicG1 := by rintro x v q rfl; rfl
    addPublicG2 := by rintro x v q rfl; rfl
    toHalf := by rintro x v rfl; rfl
    openHalfG1 := ?_
    openHalfG2 := ?_
    scalarMul := ?_
    rand := ?_ }
  · intro a b xs ys st ha hb _ _
    obtain rfl := ha.const
    obtain rfl := hb.const
    exact Spec.pure ⟨cols_const _, trivial, rfl⟩
  · intro a xs t ha hl
    obtain rfl := ha.const
    refine ⟨fun _ => List.zipWith (· * ·) xs t, fun i => ?_, cols_const _⟩
    simp [plainDriver, hl]
  · rintro x v st rfl _; exact Spec.pure ⟨rfl, trivial⟩
  · rintro x v st rfl _; exact Spec.pure ⟨rfl, trivial⟩
  · rintro x v b k st rfl rfl _; exact Spec.pure ⟨rfl, trivial⟩
  · intro st _
    exact Spec.modifyGet (f := fun _ g => Sample.sample g) ⟨_, rfl, trivial, rfl⟩

end Plain

section Rep3

open PartyID

variable {R M F G₁ G₂ : Type} [Field F] [AddCommGroup G₁] [Module F G₁] [AddCommGroup G₂] [Module F G₂]
  [Sample R F] [SampleVec R F] [Sample R G₁] [Codec M (List G₁)] [Codec M (List G₂)] {ty : A2BType}

/-- The states after masks for `n` products have been drawn. -/
def afterMasks (F : Type) [Sub F] [SampleVec R F] (n : Nat) (st : PartyID → Rep3State R) : PartyID → Rep3State R :=
  fun i => Rep3.setRand (st i) ((st i).rngs.rand.maskingFieldVec (α := F) n).2

/-- Two facts about the same run. -/
theorem spec_and {ι S M E α : Type} [DecidableEq ι] {p : ι → MPC ι S M E α} {st : ι → S}
    {Q Q' : (ι → α) → (ι → S) → Prop} (h : Spec p st Q) (h' : Spec p st Q') :
    Spec p st fun r s => Q r s ∧ Q' r s := by
  obtain ⟨v, l, hr, hq⟩ := h
  obtain ⟨v', l', hr', hq'⟩ := h'
  have e := (Runs.unique hr hr').1
  have : v = v' := funext fun i => by simpa using congrFun e i
  subst this
  exact ⟨v, l, hr, hq, hq'⟩

theorem isAdditive_add {V : Type} [AddCommGroup V] {x y : PartyID → V} {v w : V} (hx : IsAdditive x v)
    (hy : IsAdditive y w) : IsAdditive (fun i => x i + y i) (v + w) := by
  simp only [IsAdditive] at *; rw [← hx, ← hy]; abel

theorem isAdditive_sub {V : Type} [AddCommGroup V] {x y : PartyID → V} {v w : V} (hx : IsAdditive x v)
    (hy : IsAdditive y w) : IsAdditive (fun i => x i - y i) (v - w) := by
  simp only [IsAdditive] at *; rw [← hx, ← hy]; abel

theorem isAdditive_point {V : Type} [AddCommGroup V] [Module F V] {x : PartyID → F} {v : F} (hx : IsAdditive x v)
    (Q : V) : IsAdditive (fun i => x i • Q) (v • Q) := by
  simp only [IsAdditive] at *; rw [← hx]; module

theorem isAdditive_addPublic {V : Type} [AddCommGroup V] {x : PartyID → V} {v : V} (hx : IsAdditive x v) (q : V) :
    IsAdditive (fun i => rep3AddPublic i (x i) q) (v + q) := by
  simp only [IsAdditive, rep3AddPublic] at *; rw [← hx]; abel

theorem spec_localMulVec_state {a b : PartyID → List (Share F)} {xs ys : List F} (ha : IsShares a xs)
    (hb : IsShares b ys) (hxy : xs.length = ys.length) (st : PartyID → Rep3State R) :
    Spec (M := M) (fun i => Rep3.localMulVec (a i) (b i)) st (fun _ st' => st' = afterMasks F xs.length st) := by
  have hla := Cols.length ha
  have hlb := Cols.length hb
  simp only [Rep3.localMulVec, hla, hlb, hxy, ne_eq, not_true_eq_false, if_false]
  refine Spec.bind (Q₁ := fun _ st' => st' = afterMasks F ys.length st)
    (Rep3.spec_withRand (f := fun _ g => g.maskingFieldVec ys.length) rfl) ?_
  rintro m st' rfl
  exact Spec.pure rfl

theorem rep3Driver_spec : DriverSpec (rep3Driver (R := R) (M := M) (F := F) (G₁ := G₁) (G₂ := G₂))
    (Corr ty) IsShare IsAdditive IsAdditive IsAdditive (fun n st st' => st' = afterMasks F n st)
    (fun st v st' => v = Rep3.randValue F st ∧ st' = Rep3.afterRand F st) := by
  refine {
    zero := IsShare.zero
    add := fun x y v w hx hy => hx.add hy
    smul := fun c x v hx => by rw [smul_eq_mul, mul_comm]; exact hx.scale c
    hzero := by simp [IsAdditive]
    hadd := fun x y v w hx hy => isAdditive_add hx hy
    hsub := fun x y v w hx hy => isAdditive_sub hx hy
    hsmul := fun c x v hx => by
      simp only [IsAdditive, smul_eq_mul] at *; rw [← hx]; ring
    zero1 := by simp [IsAdditive]
    add1 := fun x y v w hx hy => isAdditive_add hx hy
    sub1 := fun x y v w hx hy => isAdditive_sub hx hy
    point1 := fun x v Q hx => isAdditive_point hx Q
    zero2 := by simp [IsAdditive]
    add2 := fun x y v w hx hy => isAdditive_add hx hy
    point2 := fun x v Q hx => isAdditive_point hx Q
    evaluate := ?_
    evaluateHalf := ?_
    promote := ?_
    localMulVec := ?_
    distribute := ?_
    addPublicG1 := fun x v q hx => isAdditive_addPublic hx q
    addPublicG2 := fun x v q hx => isAdditive_addPublic hx q
    toHalf := fun x v hx => hx.2
    openHalfG1 := ?_
    openHalfG2 := ?_
    scalarMul := ?_
    rand := ?_ }
  · intro row pub wit ws hw hr
    refine row_eval (P := IsShare) (Q := IsShare) (addPub := fun i acc c k => Rep3.addPublic acc (c * k) i)
      (addWit := fun _ acc c k => acc + c.scale k) hw ?_ ?_ ?_ hr (acc := fun _ => Share.zeroShare) IsShare.zero
    · rintro i acc ⟨k, j⟩
      simp only
      split
      · cases pub[j]? <;> rfl
      · cases (wit i)[j - pub.length]? <;> rfl
    · intro acc v c k h
      rw [mul_comm k c]; exact h.addPublic (c * k)
    · intro acc v y c k h hy
      rw [mul_comm k c]; exact h.add (hy.scale k)
  · intro row pub wit ws hw hr
    refine row_eval (P := IsShare) (Q := IsAdditive)
      (addPub := fun i acc c k => match i with | ID0 => acc + c * k | ID1 => acc | ID2 => acc)
      (addWit := fun _ acc c k => acc + c.a * k) hw ?_ ?_ ?_ hr (acc := fun _ => 0) (by simp [IsAdditive])
    · rintro i acc ⟨k, j⟩
      simp only
      split
      · cases pub[j]? <;> cases i <;> rfl
      · cases (wit i)[j - pub.length]? <;> rfl
    · intro acc v c k h
      simp only [IsAdditive] at *; rw [← h]; ring
    · intro acc v y c k h hy
      have := hy.2
      simp only [IsAdditive] at *; rw [← h, ← this]; ring
  · intro vs
    have := Cols.map (P := fun (x : PartyID → F) v => x = fun _ => v) (Q := IsShare)
      (f := fun i v => Share.promoteFromTrivial v i) (g := id) (cols_const vs) (by
        rintro x v rfl; exact IsShare.promoteWithScalar v 0)
    rwa [List.map_id] at this
  · intro a b xs ys st ha hb hxy hst
    refine (spec_and (Rep3.spec_localMulVec ha hb hxy hst) (spec_localMulVec_state ha hb hxy st)).mono ?_
    rintro r st' ⟨⟨h1, h2⟩, h3⟩
    exact ⟨h1, h2, h3⟩
  · intro a xs t ha hl
    have hla := Cols.length ha
    refine ⟨fun i => List.zipWith Share.scale (a i) t, fun i => ?_, ?_⟩
    · simp only [rep3Driver, zipEq, hla, hl, if_true]
    · exact Cols.zipWith (W := IsShare) (f := fun _ => Share.scale) (g := fun x y => x * y) ha (cols_const t)
        fun x v y u hx hu => by subst hu; exact hx.scale u
  · intro x v st hx hst
    refine (Rep3.Point.spec_openHalfPoint hx).mono ?_
    rintro r st' ⟨rfl, rfl⟩
    exact ⟨rfl, hst⟩
  · intro x v st hx hst
    refine (Rep3.Point.spec_openHalfPoint hx).mono ?_
    rintro r st' ⟨rfl, rfl⟩
    exact ⟨rfl, hst⟩
  · intro x v b k st hx hb hst
    refine Spec.bind Rep3.spec_reshare ?_
    rintro y st ⟨rfl, rfl⟩
    exact Rep3.Point.spec_scalarMulLocal (isShare_mk hx) hb hst
  · intro st hst
    refine (Rep3.spec_rand' hst).mono ?_
    rintro r st' ⟨hr, rfl⟩
    exact ⟨_, hr, Rep3.Corr.afterRand hst, rfl, rfl⟩

end Rep3

section Shamir

open Verif.Shamir (ShCorr ShamirState)

variable {n : Nat} {R M F G₁ G₂ : Type} [Field F] [AddCommGroup G₁] [Module F G₁] [AddCommGroup G₂] [Module F G₂]
  [Sample R F] [Codec M (List F)] [Codec M G₁] [Codec M G₂] [Codec M (List G₁)] {t : Nat}

/-- `v` is the value of the next double sharing: the last one in the buffers, which are refilled first if they are
empty, and `st'` are the states without it. -/
def NextPair (t : Nat) (st : Fin n → ShamirState n R F) (v : F) (st' : Fin n → ShamirState n R F) : Prop :=
  ∃ (base : Fin n → ShamirState n R F) (rest : List (Fin n → F × F)) (r : Fin n → F × F),
    (base = st ∨ (∀ i, (st i).rng.rT = []) ∧ base = Shamir.refilled t st) ∧
    (∀ i, (base i).rng.rT = (rest ++ [r]).map fun p => (p i).1) ∧
    IsShamir F t (fun i => (r i).1) v ∧ st' = Shamir.setBuf base rest

theorem shamir_spec_rand {st : Fin n → ShamirState n R F} (h : ShCorr t st) :
    Spec (M := M) (fun _ => Shamir.rand) st (fun r st' =>
      ∃ v, IsShamir F t r v ∧ ShCorr t st' ∧ NextPair t st v st') := by
  obtain ⟨buf, hb⟩ := h.rng.pairs
  unfold Shamir.rand
  refine Spec.bind (spec_and (Shamir.spec_getPair h hb) (Shamir.spec_getPair' h)) ?_
  rintro r st' ⟨hr, ⟨v, h1, _⟩, hst'⟩
  refine Spec.pure ⟨v, h1, hst', ?_⟩
  rcases hr with ⟨rest, rfl, rfl⟩ | ⟨rfl, rest, k, hk, hf, rfl⟩
  · exact ⟨st, rest, r, .inl rfl, hb.rT, h1, rfl⟩
  · refine ⟨_, rest, r, .inr ⟨fun i => by rw [hb.rT]; rfl, rfl⟩, fun i => ?_, h1, rfl⟩
    have e := hb.rT i
    simp only [List.map_nil] at e
    simp only [Shamir.refilled, Shamir.afterBuffer, e, hk, List.nil_append]
    rw [hf]

theorem shamirDriver_spec (gen : G₁) :
    DriverSpec (shamirDriver (n := n) (R := R) (M := M) (F := F) (G₁ := G₁) (G₂ := G₂) gen)
    (ShCorr t) (IsShamir F t) (IsShamir F (2 * t)) (IsShamir F (2 * t)) (IsShamir F (2 * t))
    (fun _ st st' => st' = st) (NextPair t) := by
  have hev : ∀ (row : List (F × Nat)) (pub : List F) (wit : Fin n → List F) (ws : List F),
      Cols (IsShamir F t) wit ws → (∀ x ∈ row, x.2 < pub.length + ws.length) →
      ∃ s, (∀ i, shamirEvaluate row pub (wit i) = some (s i)) ∧ IsShamir F t s (rowValue row (pub ++ ws)) := by
    intro row pub wit ws hw hr
    refine row_eval (P := IsShamir F t) (Q := IsShamir F t)
      (addPub := fun _ acc c k => Shamir.addPublic acc (c * k))
      (addWit := fun _ acc c k => Shamir.add acc (Shamir.mulPublic c k)) hw ?_ ?_ ?_ hr (acc := fun _ => 0)
      (IsShamir.const _ 0)
    · rintro i acc ⟨k, j⟩
      simp only
      split
      · cases pub[j]? <;> rfl
      · cases (wit i)[j - pub.length]? <;> rfl
    · intro acc v c k h
      rw [mul_comm k c]; exact h.add (IsShamir.const _ (c * k))
    · intro acc v y c k h hy
      exact h.add (hy.smul k)
  refine {
    zero := IsShamir.const _ 0
    add := fun x y v w hx hy => hx.add hy
    smul := fun c x v hx => hx.smul c
    hzero := IsShamir.const _ 0
    hadd := fun x y v w hx hy => hx.add hy
    hsub := fun x y v w hx hy => hx.sub hy
    hsmul := fun c x v hx => hx.smul c
    zero1 := IsShamir.const _ 0
    add1 := fun x y v w hx hy => hx.add hy
    sub1 := fun x y v w hx hy => hx.sub hy
    point1 := fun x v Q hx => hx.linear (LinearMap.toSpanSingleton F G₁ Q)
    zero2 := IsShamir.const _ 0
    add2 := fun x y v w hx hy => hx.add hy
    point2 := fun x v Q hx => hx.linear (LinearMap.toSpanSingleton F G₂ Q)
    evaluate := hev
    evaluateHalf := fun row pub wit ws hw hr => by
      obtain ⟨s, h1, h2⟩ := hev row pub wit ws hw hr
      exact ⟨s, h1, h2.mono (by omega)⟩
    promote := ?_
    localMulVec := ?_
    distribute := ?_
    addPublicG1 := fun x v q hx => hx.add (IsShamir.const _ q)
    addPublicG2 := fun x v q hx => hx.add (IsShamir.const _ q)
    toHalf := fun x v hx => hx.mono (by omega)
    openHalfG1 := ?_
    openHalfG2 := ?_
    scalarMul := ?_
    rand := fun h => shamir_spec_rand h }
  · intro vs
    have := Cols.map (P := fun (x : Fin n → F) v => x = fun _ => v) (Q := IsShamir F t)
      (f := fun _ => Shamir.promote) (g := id) (cols_const vs) (by
        rintro x v rfl; exact IsShamir.const _ v)
    rwa [List.map_id] at this
  · intro a b xs ys st ha hb hxy hst
    have hla := Cols.length ha
    have hlb := Cols.length hb
    have hm := Shamir.isShamirs_mul ha hb
    rw [← Nat.two_mul] at hm
    refine spec_orPanic (s := fun i => List.zipWith (· * ·) (a i) (b i)) (fun i => ?_) ⟨hm, hst, rfl⟩
    simp only [Shamir.localMulVec, hla, hlb, hxy, if_true]
  · intro a xs t ha hl
    have hla := Cols.length ha
    refine ⟨fun i => List.zipWith Shamir.mulPublic (a i) t, fun i => ?_, ?_⟩
    · simp only [shamirDriver, zipEq, hla, hl, if_true]
    · refine Cols.zipWith (f := fun _ => Shamir.mulPublic) (g := fun x y => x * y) ha (cols_const t)
        fun x v y u hx hu => ?_
      subst hu
      have := hx.smul u
      rw [smul_eq_mul, mul_comm] at this
      exact this
  · intro x v st hx hst
    refine (Shamir.spec_openHalf hst hx).mono ?_
    rintro r st' ⟨rfl, rfl⟩
    exact ⟨rfl, hst⟩
  · intro x v st hx hst
    refine (Shamir.spec_openHalf hst hx).mono ?_
    rintro r st' ⟨rfl, rfl⟩
    exact ⟨rfl, hst⟩
  · intro x v b k st hx hb hst
    refine Spec.bind (Shamir.spec_degreeReducePoint hst gen hx) ?_
    rintro y st ⟨hy, hst⟩
    have := hb.smul_smul hy
    rw [← Nat.two_mul] at this
    exact Spec.pure ⟨this, hst⟩

end Shamir

end Verif.Groth16
