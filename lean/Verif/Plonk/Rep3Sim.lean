import Verif.Plonk.Drivers
import Verif.Plonk.Rep3Draws
import Verif.Plonk.Sim
import Verif.Poly.EvalLemmas
import Verif.Rep3.PointLemmas

/-!
# Lemmas: the Rep3 driver of the PLONK prover
-/

namespace Verif.Plonk

open Rep3 PartyID

variable {R M F G H Seed : Type} [Field F] [DecidableEq F] [AddCommGroup G] [Module F G] [Sample R F] [Sample R Seed]
  [Seedable R Seed] {ty : A2BType} {st₀ st : PartyID → Rep3State R}

variable (F ty st₀) in
/-- The states after at most `N` draws, and after `k` more draws these are still at most `N`. -/
def RInv (N k : Nat) (st : PartyID → Rep3State R) : Prop :=
  Corr ty st ∧ ∃ j, st = (afterRand F)^[j] st₀ ∧ j + k ≤ N

omit [Field F] [DecidableEq F] in
theorem RInv.draw {N k : Nat} (h : RInv F ty st₀ N (k + 1) st) : RInv F ty st₀ N k (afterRand F st) := by
  obtain ⟨h, j, hj, hk⟩ := h
  exact ⟨Corr.afterRand h, j + 1, by rw [hj, Function.iterate_succ_apply'], by omega⟩

omit [Field F] [DecidableEq F] in
theorem RInv.draws {N k : Nat} (n : Nat) (h : RInv F ty st₀ N (n + k) st) :
    RInv F ty st₀ N k ((afterRand F)^[n] st) := by
  induction n generalizing st with
  | zero => rwa [Nat.zero_add] at h
  | succ n ih =>
    rw [Function.iterate_succ_apply]
    refine ih (RInv.draw ?_)
    rwa [show n + k + 1 = n + 1 + k by omega]

omit [DecidableEq F] in
theorem RInv.drawsZero {N k n : Nat} (h : RInv F ty st₀ N (n + k) st) (h0 : 0 ∈ randValues F n st) :
    DrawsZero F st₀ N := by
  induction n generalizing st with
  | zero => simp [randValues] at h0
  | succ n ih =>
    rw [show n + 1 + k = n + k + 1 by omega] at h
    rcases List.mem_cons.mp h0 with h0 | h0
    · obtain ⟨_, j, hj, hk⟩ := h
      exact ⟨j, by omega, hj ▸ h0.symm⟩
    · exact ih h.draw h0

section

variable [Codec M (List F)]

local notation "CSR" => CSpec (M := M) (RInv F ty st₀) (DrawsZero F st₀)

omit [DecidableEq F] [Codec M (List F)] in
theorem calc_rep3 : Calc (c := MPC PartyID (Rep3State R) M Err)
    (fun {α} => CSpec (α := α) (M := M) (RInv F ty st₀) (DrawsZero F st₀)) where
  pure h := CSpec.pure h
  bind h h' := CSpec.bind h h'
  mono h h' := CSpec.mono h h'
  weak := by
    intro α k j q Q h hk N K st hst
    refine (h N (j - k + K) st ?_).mono fun _ hr => allOrNone_mono hr id fun v s hv => ⟨hv.1, ?_⟩
    · rwa [show k + (j - k + K) = j + K by omega]
    · obtain ⟨h, i, hi, hk⟩ := hv.2
      exact ⟨h, i, hi, by omega⟩

omit [DecidableEq F] in
theorem cspec_mulVec {a b : PartyID → List (Share F)} {x y : List F} (ha : Cols IsShare a x) (hb : Cols IsShare b y)
    (hl : x.length = y.length) :
    CSR x.length (fun i => mulVec (a i) (b i)) fun r => Cols IsShare r (List.zipWith (· * ·) x y) := by
  refine CSpec.ofSpec fun N K st hst => (spec_mulVec_draws ha hb hl hst.1).mono ?_
  rintro r _ ⟨h1, _, rfl⟩
  exact ⟨h1, hst.draws⟩

omit [DecidableEq F] in
theorem cspec_mulOpenVec {a b : PartyID → List (Share F)} {x y : List F} (ha : Cols IsShare a x) (hb : Cols IsShare b y)
    (hl : x.length = y.length) :
    CSR x.length (fun i => mulOpenVec (a i) (b i)) fun r => r = fun _ => List.zipWith (· * ·) x y := by
  refine CSpec.ofSpec fun N K st hst => (spec_mulOpenVec_draws ha hb hl hst.1).mono ?_
  rintro r _ ⟨h1, _, rfl⟩
  exact ⟨h1, hst.draws⟩

omit [DecidableEq F] in
theorem zero_mem_zipWith_mul (x y : List F) (h : 0 ∈ List.zipWith (· * ·) x y) : 0 ∈ x ∨ 0 ∈ y := by
  induction x generalizing y with
  | nil => simp at h
  | cons a x ih =>
    cases y with
    | nil => simp at h
    | cons b y =>
      rw [List.zipWith_cons_cons, List.mem_cons] at h
      rcases h with h | h
      · rcases mul_eq_zero.mp h.symm with rfl | rfl <;> simp
      · rcases ih y h with h | h <;> simp [h]

theorem specE_invVec {a : PartyID → List (Share F)} {x : List F} (ha : Cols IsShare a x) (N K : Nat)
    (hx : 0 ∈ x → DrawsZero F st₀ N)
    (hst : RInv F ty st₀ N (2 * x.length + K) st) :
    SpecE (M := M) (fun i => invVec (a i)) st (AllOrNone (DrawsZero F st₀ N)
      fun r s => (0 ∉ x ∧ Cols IsShare r (x.map (·⁻¹))) ∧ RInv F ty st₀ N K s) := by
  refine (spec_invVec_draws ha hst.1).mono ?_
  rintro r (⟨e, he, h0⟩ | ⟨v, s, hv, h0, h1, _, rfl⟩)
  · refine .inl ⟨e, he, ?_⟩
    rcases zero_mem_zipWith_mul _ _ h0 with h0 | h0
    · exact hx h0
    · exact RInv.drawsZero (k := x.length + K) (by rwa [show x.length + (x.length + K) = 2 * x.length + K by omega]) h0
  · refine .inr ⟨v, _, hv, ⟨fun hz => h0 ?_, h1⟩, RInv.draws _ (by rwa [← Nat.two_mul])⟩
    obtain ⟨k, hk, hz⟩ := List.getElem_of_mem hz
    refine List.mem_iff_getElem.mpr ⟨k, by simpa using hk, ?_⟩
    simp [hz]

theorem cspec_invVec {a : PartyID → List (Share F)} {x : List F} (ha : Cols IsShare a x) (hx : 0 ∉ x) :
    CSR (2 * x.length) (fun i => invVec (a i)) fun r => Cols IsShare r (x.map (·⁻¹)) :=
  fun N K _ hst => (specE_invVec ha N K (fun h => absurd h hx) hst).mono fun _ hr =>
    allOrNone_mono hr id fun _ _ h => ⟨h.1.2, h.2⟩

theorem cspec_randInv (n : Nat) :
    CSR (3 * n) (fun _ => randInv (rand : Rep3M R M (Share F)) invVec n) fun r => ∃ v : List F, v.length = n ∧ 0 ∉ v ∧
      Cols IsShare (fun i => (r i).1) v ∧ Cols IsShare (fun i => (r i).2) (v.map (·⁻¹)) := by
  intro N K st hst
  rw [show 3 * n + K = n + (2 * n + K) by omega] at hst
  unfold randInv
  refine SpecE.bind (spec_rands_draws n hst.1) ?_
  rintro r s ⟨hr, _, rfl⟩
  refine SpecE.bindAll (specE_invVec hr N K (fun h => hst.drawsZero h) (by rw [randValues_length]; exact hst.draws)) ?_
    fun e hb => .inl ⟨e, fun _ => rfl, hb⟩
  rintro ri s ⟨⟨h0, hri⟩, hs⟩
  exact SpecE.pure (.inr ⟨fun i => (r i, ri i), s, fun _ => rfl, ⟨_, by simp, h0, hr, hri⟩, hs⟩)

end

omit [DecidableEq F] [Sample R F] [AddCommGroup G] [Module F G] in
theorem linear_rep3 : Linear (F := F) (IsShare (G := F)) (fun i x y => addPublic x y i) (fun i x => promoteToTrivialShare i x) where
  zero := IsShare.zero
  add _ _ _ _ h h' := h.add h'
  sub _ _ _ _ h h' := h.sub h'
  neg _ _ h := h.neg
  smul k _ _ h := by have := h.scale k; rwa [smul_eq_mul, mul_comm]
  addPub _ _ k h := h.addPublic k
  promote k := IsShare.promote k

omit [DecidableEq F] in
theorem evalPublic_eq_polyValue (p : List F) (x : F) : evalPublic p x = polyValue p x := by
  induction p with
  | nil => rfl
  | cons a p ih => rw [Verif.Poly.polyValue_cons, ← ih]; simp [evalPublic]; ring

variable (ty st₀) in
/-- What is known of the states outside of the products of round 2: at the position `T` the state is `st₀`. -/
def TInv (T N k : Nat) (st : PartyID → Rep3State R) : Prop :=
  Corr ty st ∧ (N = 0 → k ≤ T ∧ (k = T → st = st₀))

omit [DecidableEq F] [Field F] in
theorem TInv.draws {T N k : Nat} (n : Nat) (h : TInv ty st₀ T N (n + k) st) (hc : Corr ty ((afterRand F)^[n] st)) :
    TInv ty st₀ T N k ((afterRand F)^[n] st) := by
  refine ⟨hc, fun hN => ⟨by have := (h.2 hN).1; omega, fun hk => ?_⟩⟩
  have := h.2 hN
  obtain rfl : n = 0 := by omega
  exact this.2 (by omega)

theorem supply_rep3 {T : Nat} {bad : Prop} : Supply (M := M) (TInv ty st₀ T) (fun _ => bad) (rep3Fork Seed) where
  mono := by
    rintro N k j st ⟨h, h'⟩ hj
    refine ⟨h, fun hN => ⟨by have := (h' hN).1; omega, fun hT => (h' hN).2 ?_⟩⟩
    have := (h' hN).1
    omega
  bad := id
  fork := by
    rintro N n K st hn ⟨h, hN⟩
    refine Spec.modifyGet (f := fun _ s => Rep3State.fork Seed s) ?_
    obtain ⟨_, h1, h2⟩ := RngOp.run_corr (Seed := Seed) h .forkChild
    obtain ⟨_, h3, h4⟩ := RngOp.run_corr (Seed := Seed) h .forkParent
    cases h1
    cases h3
    exact ⟨⟨h2, fun h => by omega⟩, h4, fun h0 => ⟨by have := (hN h0).1; omega, fun hT => by have := (hN h0).1; omega⟩⟩

theorem sim_rep3 [Codec M (List F)] [Codec M (List G)] [Codec M (List (List G))] (T : Nat) (bad : Prop)
    (ev : PartyID → List (Share F) → F → Share F)
    (hev : ∀ i l x, l ≠ [] → ∃ threads, Verif.Poly.EvalPoly Verif.Poly.rep3Ops threads l x (ev i l x)) :
    Sim (fun i => rep3 (M := M) (R := R) (F := F) (G := G) Seed i (ev i)) IsShare IsShare
      (fun {α} k p Q => MSpec (α := α) (TInv ty st₀ T) (fun _ => bad) 0 k p Q)
      (fun {α} => CSpec (α := α) (TInv ty st₀ T) (fun _ => bad)) where
  linear := linear_rep3
  evalPoly := by
    intro s v x h hv
    rw [evalPublic_eq_polyValue]
    have : ∀ i, ∃ threads, Verif.Poly.EvalPoly Verif.Poly.rep3Ops threads (s i) x (ev i (s i) x) := fun i => hev i _ _ fun e => by
      have := Cols.length h i
      rw [e] at this
      exact hv (List.length_eq_zero_iff.mp this.symm)
    choose threads hth using this
    exact Verif.Poly.evalPoly_rep3 h hth
  msm pts h := Point.msm_share pts h
  mPure h := MSpec.pure h
  mBind h h' := MSpec.bind h h'
  cBind h h' := CSpec.bind h h'
  cPure h := CSpec.pure h
  mMono h h' := MSpec.mono h h'
  mWeak h hk := MSpec.weak (supply_rep3 (M := M) (Seed := Seed)) h hk
  cWeak h hk := CSpec.weak (supply_rep3 (M := M) (Seed := Seed)) h hk
  cMono h h' := CSpec.mono h h'
  first h := MSpec.first (supply_rep3 (M := M) (Seed := Seed)) h
  join qs h1 h2 h3 := MSpec.join supply_rep3 qs h1 h2 h3
  rand := by
    refine CSpec.ofSpec fun N K st hst => (spec_rand' hst.1).mono ?_
    rintro r _ ⟨h, rfl⟩
    exact ⟨⟨_, h⟩, hst.draws (F := F) 1 (Corr.afterRand hst.1)⟩
  mulVec := by
    intro s t v u h h' hl
    refine CSpec.ofSpec fun N K st hst => (spec_mulVec_draws h h' hl hst.1).mono ?_
    rintro r _ ⟨h1, hc, rfl⟩
    exact ⟨h1, hst.draws _ hc⟩
  addMulVec := by
    intro r s t w v u hr hs ht hl hl'
    refine CSpec.ofSpec fun N K st hst => Spec.bind (spec_mulVec_draws hs ht hl hst.1) ?_
    rintro p _ ⟨hp, hc, rfl⟩
    refine Spec.pure ⟨?_, hst.draws _ hc⟩
    have := Cols.zipWith (W := IsShare) (f := fun _ x y => x + y) (g := (· + ·)) hp hr fun _ _ _ _ h h' => h.add h'
    have e : (fun i => addVecAssign (p i) (r i)) = fun i => List.zipWith (· + ·) (p i) (r i) := by
      funext i
      have h1 := Cols.length hp i
      have h2 := Cols.length hr i
      rw [List.length_zipWith, ← hl, Nat.min_self, ← hl', ← h2] at h1
      generalize p i = a at h1
      generalize r i = b at h1
      clear * - h1
      induction a generalizing b with
      | nil => cases b <;> simp_all [addVecAssign]
      | cons x a ih =>
        cases b with
        | nil => simp at h1
        | cons y b => simp only [addVecAssign, List.zipWith_cons_cons]; rw [ih b (by simpa using h1)]
    rw [e]
    exact this
  openVec := by
    intro s v h
    refine CSpec.ofSpec fun N K st hst => (spec_openVec h).mono ?_
    rintro r _ ⟨h, rfl⟩
    exact ⟨h, by rwa [Nat.zero_add] at hst⟩
  openPoints := by
    intro s v h
    refine CSpec.ofSpec fun N K st hst => (Point.spec_openPointMany h).mono ?_
    rintro r _ ⟨h, rfl⟩
    exact ⟨h, by rwa [Nat.zero_add] at hst⟩
  openPoint := by
    intro s v h
    refine CSpec.ofSpec fun N K st hst => (Point.spec_openPoint h).mono ?_
    rintro r _ ⟨h, rfl⟩
    exact ⟨h, by rwa [Nat.zero_add] at hst⟩

/-- The products of round 2, with states that have not yet been used. -/
theorem specE_arrayProdMul [Codec M (List F)] [Codec M (List G)] [Codec M (List (List G))]
    (ev : PartyID → List (Share F) → F → Share F) (inv : Bool) {n : Nat} {r s t : PartyID → List (Share F)} {w v u res : List F}
    (hr : Vec IsShare n r w) (hs : Vec IsShare n s v) (ht : Vec IsShare n t u)
    (hres : (reference (F := F) (G := G)).arrayProdMul inv w v u = .ok res) (hst : Corr ty st) :
    SpecE (M := M) (fun i => (rep3 (M := M) (R := R) (F := F) (G := G) Seed i (ev i)).arrayProdMul inv (r i) (s i) (t i)) st
      (AllOrNone (DrawsZero F st (if inv then 10 * n + 3 else 8 * n + 3)) fun a _ => Vec IsShare n a res) := by
  obtain ⟨hr, rfl⟩ := hr
  have := spec_arrayProdMul (calc_rep3 (M := M) (F := F) (ty := ty) (st₀ := st)) 1 3 2 1 IsShare.zero linear_rep3.smul
    (mulVec := fun _ => mulVec) (rand := fun _ => rand) (invRand := fun _ => invVec) (invLast := fun _ => invVec)
    (mulOpenVec := fun _ => mulOpenVec)
    (by
      intro s t v u h h' hl
      rw [Nat.one_mul]
      exact cspec_mulVec h h' hl) (fun n => cspec_randInv n)
    (fun h h' => cspec_invVec h h')
    (by
      intro s t v u h h' hl
      rw [Nat.one_mul]
      exact cspec_mulOpenVec h h' hl) inv hr hs.1 ht.1 hs.2.symm (by rw [hs.2, ht.2]) hres
    (k := if inv then 10 * w.length + 3 else 8 * w.length + 3) (by cases inv <;> simp <;> omega)
    (if inv then 10 * w.length + 3 else 8 * w.length + 3) 0 st ⟨hst, 0, rfl, by omega⟩
  refine this.mono fun _ hr => allOrNone_mono hr id fun a _ ha => ⟨ha.1, ?_⟩
  have hres' : arrayProd inv w v u = .ok res := hres
  unfold arrayProd at hres'
  simp only at hres'
  split_ifs at hres' <;> cases hres' <;> simp [prefixProducts_length, hs.2, ht.2]

end Verif.Plonk
