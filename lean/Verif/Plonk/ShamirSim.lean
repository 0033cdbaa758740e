import Verif.Plonk.Drivers
import Verif.Plonk.Sim
import Verif.Plonk.Rep3Sim
import Verif.Shamir.ArithLemmas
import Verif.Shamir.PointLemmas

/-!
# Lemmas: the Shamir driver of the PLONK prover
-/

namespace Verif.Plonk

open Shamir

variable {n : Nat} {R M F G H Seed : Type} [Field F] [DecidableEq F] [AddCommGroup G] [Module F G] [Sample R F] [Sample R Seed]
  [Seedable R Seed] {t : Nat} {buf₀ : List (Fin n → F × F)} {st : Fin n → ShamirState n R F}

variable (t buf₀) in
/-- There are still `k` pairs, all from the preprocessing. -/
def SInv (k : Nat) (st : Fin n → ShamirState n R F) : Prop :=
  ShCorr t st ∧ ∃ buf, Buffered t (fun i => (st i).rng) buf ∧ k ≤ buf.length ∧ ∀ p ∈ buf, p ∈ buf₀

variable (t buf₀) in
/-- One of the pairs is a sharing of zero. -/
def ZeroPair : Prop := ∃ p ∈ buf₀, IsShamir F t (fun i => (p i).1) 0

section

variable [Codec M (List F)]

omit [DecidableEq F] in
theorem spec_getPair_inv {k : Nat} (h : SInv t buf₀ (k + 1) st) :
    Spec (M := M) (fun _ => getPair) st fun p s => (p ∈ buf₀ ∧ IsPair t p) ∧ SInv t buf₀ k s := by
  obtain ⟨hst, buf, hb, hk, hm⟩ := h
  refine (spec_getPair hst hb).mono ?_
  rintro r s (⟨rest, rfl, rfl⟩ | ⟨rfl, _⟩)
  · have hp : ∀ p ∈ rest, IsPair t p := fun p hp => hb.pairs p (by simp [hp])
    refine ⟨⟨hm r (by simp), hb.pairs r (by simp)⟩, hst.setBuf hp, rest, ⟨fun _ => rfl, fun _ => rfl, hp⟩, ?_,
      fun p hp => hm p (by simp [hp])⟩
    rw [List.length_append, List.length_singleton] at hk
    omega
  · simp at hk

omit [DecidableEq F] in
theorem spec_rand_inv {k : Nat} (h : SInv t buf₀ (k + 1) st) :
    Spec (M := M) (fun _ => rand) st fun r s => (∃ v, IsShamir F t r v ∧ (v = 0 → ZeroPair t buf₀)) ∧ SInv t buf₀ k s := by
  unfold rand
  refine Spec.bind (spec_getPair_inv h) ?_
  rintro p s ⟨⟨hp, v, hv, _⟩, hs⟩
  exact Spec.pure ⟨⟨v, hv, by rintro rfl; exact ⟨p, hp, hv⟩⟩, hs⟩

omit [DecidableEq F] in
theorem spec_rands_inv {X : Type} (m : Nat) {k : Nat} {l : Fin n → List X} (hl : ∀ i, (l i).length = m)
    (h : SInv t buf₀ (m + k) st) :
    Spec (M := M) (fun i => (l i).mapM fun (_ : X) => (rand : ShamirM n R F M F)) st
      fun r s => (∃ v, v.length = m ∧ IsShamirs F t r v ∧ (0 ∈ v → ZeroPair t buf₀)) ∧ SInv t buf₀ k s := by
  induction m generalizing l st with
  | zero =>
    have : ∀ i, l i = [] := fun i => List.length_eq_zero_iff.mp (hl i)
    simp only [this, List.mapM_nil]
    exact Spec.pure ⟨⟨[], rfl, Cols.nil, by simp⟩, by rwa [Nat.zero_add] at h⟩
  | succ m ih =>
    have : ∀ i, ∃ x xs, l i = x :: xs := fun i => List.exists_cons_of_length_eq_add_one (hl i)
    choose x xs hx using this
    simp only [hx, List.mapM_cons]
    rw [show m + 1 + k = m + k + 1 by omega] at h
    refine Spec.bind (spec_rand_inv h) ?_
    rintro a s ⟨⟨v, hv, hv0⟩, hs⟩
    refine Spec.bind (ih (l := xs) (fun i => by have := hl i; rw [hx] at this; simpa using this) hs) ?_
    rintro b s' ⟨⟨w, hw, hb, hw0⟩, hs'⟩
    refine Spec.pure ⟨⟨v :: w, by simp [hw], Cols.cons hv hb, fun h0 => ?_⟩, hs'⟩
    rcases List.mem_cons.mp h0 with h0 | h0
    · exact hv0 h0.symm
    · exact hw0 h0

omit [DecidableEq F] in
theorem spec_masked_inv {k : Nat} {l : List (Fin n → F)} {vs : List F} (hl : List.Forall₂ (IsShamir F (2 * t)) l vs)
    (h : SInv t buf₀ (vs.length + k) st) :
    Spec (M := M) (fun i => (l.map (· i)).mapM fun (inp : F) => do
        let (rT, r2T) ← getPair
        pure (inp + r2T, rT)) st
      fun r s => (∃ rs : List F, rs.length = vs.length ∧ IsShamirs F (2 * t) (fun i => (r i).map Prod.fst) (List.zipWith (· + ·) vs rs) ∧
        IsShamirs F t (fun i => (r i).map Prod.snd) rs) ∧ SInv t buf₀ k s := by
  induction hl generalizing st with
  | nil =>
    exact Spec.pure (v := fun _ => []) ⟨⟨[], rfl, Cols.nil, Cols.nil⟩, by rwa [List.length_nil, Nat.zero_add] at h⟩
  | @cons x v xs vs hx _ ih =>
    simp only [List.map_cons, List.mapM_cons, bind_assoc, pure_bind]
    rw [List.length_cons, show vs.length + 1 + k = vs.length + k + 1 by omega] at h
    refine Spec.bind (spec_getPair_inv h) ?_
    rintro p s ⟨⟨hp, r, h1, h2⟩, hs⟩
    rw [Nat.mul_comm t 2] at h2
    refine Spec.bind (ih hs) ?_
    rintro b s' ⟨⟨rs, hrs, hb1, hb2⟩, hs'⟩
    refine Spec.pure (v := fun i => (x i + (p i).2, (p i).1) :: b i) ⟨⟨r :: rs, by simp [hrs], ?_, ?_⟩, hs'⟩
    · exact Cols.cons (hx.add h2) hb1
    · exact Cols.cons h1 hb2

omit [DecidableEq F] in
theorem spec_mulVec_inv {k : Nat} {a b : Fin n → List F} {xs ys : List F} (ha : IsShamirs F t a xs) (hb : IsShamirs F t b ys)
    (hl : xs.length = ys.length) (h : SInv t buf₀ (xs.length + k) st) :
    Spec (M := M) (fun i => mulVec (a i) (b i)) st
      fun r s => IsShamirs F t r (List.zipWith (· * ·) xs ys) ∧ SInv t buf₀ k s := by
  refine (Spec.and' (spec_mulVec h.1 ha hb) (Q' := fun _ s => SInv t buf₀ k s) ?_).mono fun r s h => ⟨h.1.1, h.2⟩
  have hm := isShamirs_mul ha hb
  rw [← Nat.two_mul] at hm
  unfold mulVec degreeReduceMany
  obtain ⟨l, hl1, hl2⟩ := hm
  have e : ∀ i, List.zipWith (· * ·) (a i) (b i) = l.map (· i) := fun i => congrFun hl1 i
  simp only [e]
  refine Spec.bind (spec_masked_inv hl2 (k := k) (by simpa [← hl] using h)) ?_
  rintro r s ⟨⟨rs, _, h1, _⟩, hs⟩
  refine Spec.bind (spec_kingReshare hs.1 h1) ?_
  rintro v s' ⟨_, rfl⟩
  exact Spec.pure hs

theorem specE_invVec_shamir {k : Nat} {a : Fin n → List F} {xs : List F} (ha : IsShamirs F t a xs)
    (hx : 0 ∈ xs → ZeroPair t buf₀) (h : SInv t buf₀ (xs.length + k) st) :
    SpecE (M := M) (fun i => invVec (a i)) st (AllOrNone (ZeroPair t buf₀)
      fun r s => (0 ∉ xs ∧ IsShamirs F t r (xs.map (·⁻¹))) ∧ SInv t buf₀ k s) := by
  obtain ⟨r, l, hr, h1⟩ := spec_invVec (M := M) h.1 ha
  refine ⟨r, l, hr, ?_⟩
  have key : SpecE (M := M) (fun i => invVec (a i)) st (AllOrNone (ZeroPair t buf₀) fun _ s => SInv t buf₀ k s) := by
    unfold invVec
    refine SpecE.bind (spec_rands_inv xs.length (fun i => ha.length i) h) ?_
    rintro r s ⟨⟨ρs, hl, hr, h0⟩, hs⟩
    refine SpecE.bind (Shamir.spec_mulOpenVec hs.1 ha hr hl.symm) ?_
    rintro y s' ⟨rfl, rfl⟩
    by_cases hz : (List.zipWith (· * ·) xs ρs).any (fun y => decide (y = 0)) = true
    · simp only [hz, if_true]
      refine SpecE.bail (.inl ⟨_, fun _ => rfl, ?_⟩)
      obtain ⟨y, hy, hy0⟩ := List.any_eq_true.mp hz
      rw [decide_eq_true_eq] at hy0
      subst hy0
      rcases zero_mem_zipWith_mul _ _ hy with h | h
      · exact hx h
      · exact h0 h
    · simp only [hz]
      exact SpecE.pure (.inr ⟨_, _, fun _ => rfl, hs⟩)
  obtain ⟨r', l', hr', h'⟩ := key
  have e := (hr.unique hr').1
  subst e
  rcases h' with h' | ⟨v, s, hv, hs⟩
  · exact .inl h'
  · rcases h1 with ⟨e, he, _⟩ | ⟨v', s', hv', h2, h3, _⟩
    · have h0 : 0 < n := by have := h.1.rng.live; omega
      have := (hv ⟨0, h0⟩).symm.trans (he ⟨0, h0⟩)
      cases this
    · have e : ∀ i, v i = v' i := fun i => by
        have := (hv i).symm.trans (hv' i)
        simp only [Except.ok.injEq, Prod.mk.injEq] at this
        exact this.1
      obtain rfl : v = v' := funext e
      exact .inr ⟨v, s, hv, ⟨h2, h3⟩, hs⟩

end

omit [DecidableEq F] in
theorem supply_shamir : Supply (M := M) (fun _ k => SInv t buf₀ k) (fun _ => ZeroPair t buf₀)
    (Shamir.fork (n := n) (R := R) (F := F) (Seed := Seed)) where
  mono := by
    rintro N k j st ⟨h, buf, hb, hk, hm⟩ hj
    exact ⟨h, buf, hb, by omega, hm⟩
  bad h := h
  fork := by
    rintro N m K st hn ⟨h, buf, hb, hk, hm⟩
    refine (spec_fork hb (by omega)).mono ?_
    rintro r s ⟨rfl, rfl⟩
    have h1 : ∀ p ∈ buf.take m, IsPair t p := fun p hp => hb.pairs p (List.mem_of_mem_take hp)
    have h2 : ∀ p ∈ buf.drop m, IsPair t p := fun p hp => hb.pairs p (List.mem_of_mem_drop hp)
    refine ⟨⟨h.forkChild h1, _, ⟨fun _ => rfl, fun _ => rfl, h1⟩, ?_, fun p hp => hm p (List.mem_of_mem_take hp)⟩,
      h.forkParent h2, _, ⟨fun _ => rfl, fun _ => rfl, h2⟩, ?_, fun p hp => hm p (List.mem_of_mem_drop hp)⟩
    · rw [List.length_take]; omega
    · rw [List.length_drop]; omega

omit [DecidableEq F] [Sample R F] in
theorem calc_shamir : Calc (c := MPC (Fin n) (ShamirState n R F) M Err)
    (fun {α} => CSpec (α := α) (M := M) (fun _ k => SInv (R := R) t buf₀ k) (fun _ => ZeroPair t buf₀)) where
  pure h := CSpec.pure h
  bind h h' := CSpec.bind h h'
  mono h h' := CSpec.mono h h'
  weak := by
    intro α k j q Q h hk N K st hst
    refine (h N (j - k + K) st ?_).mono fun _ hr => allOrNone_mono hr id fun v s hv => ⟨hv.1, ?_⟩
    · rwa [show k + (j - k + K) = j + K by omega]
    · obtain ⟨h, buf, hb, hk, hm⟩ := hv.2
      exact ⟨h, buf, hb, by omega, hm⟩

omit [DecidableEq F] in
theorem linear_shamir : Linear (F := F) (IsShamir (n := n) F t) (fun _ x y => addPublic x y) (fun _ x => promote x) where
  zero := IsShamir.const t 0
  add _ _ _ _ h h' := h.add h'
  sub _ _ _ _ h h' := h.sub h'
  neg _ _ h := by have := (IsShamir.const (n := n) (F := F) t 0).sub h; simpa using this
  smul k _ _ h := h.smul k
  addPub _ _ k h := h.add (IsShamir.const t k)
  promote k := IsShamir.const t k

theorem prod_shamir [Codec M (List F)] [Codec M G] [Codec M (List G)] :
    ProdSim (fun _ : Fin n => shamir (n := n) (M := M) (R := R) (F := F) (G := G) Seed) (IsShamir F t)
      (fun {α} => CSpec (α := α) (fun _ k => SInv t buf₀ k) (fun _ => ZeroPair t buf₀)) := by
  intro inv r s t' w v u res hr hs ht h1 h2 hres
  refine spec_arrayProdMul calc_shamir 1 2 1 0 (IsShamir.const t 0) linear_shamir.smul ?_ ?_ ?_ ?_ inv hr hs ht h1 h2 hres ?_
  · intro s t v u h h' hl
    rw [Nat.one_mul]
    exact CSpec.ofSpec fun N K st hst => spec_mulVec_inv h h' hl hst
  · intro m N K st hst
    rw [show 2 * m + K = m + (m + K) by omega] at hst
    unfold randInv
    refine SpecE.bind (spec_rands_inv m (by simp) hst) ?_
    rintro a s ⟨⟨v, hv, ha, h0⟩, hs⟩
    refine SpecE.bindAll (specE_invVec_shamir (k := K) ha h0 (by rwa [hv])) ?_ fun e hb => .inl ⟨e, fun _ => rfl, hb⟩
    rintro b s' ⟨⟨hz, hb⟩, hs'⟩
    exact SpecE.pure (.inr ⟨fun i => (a i, b i), s', fun _ => rfl, ⟨v, hv, hz, ha, hb⟩, hs'⟩)
  · intro s v h h0 N K st hst
    rw [Nat.one_mul] at hst
    exact (specE_invVec_shamir h (fun h => absurd h h0) hst).mono fun _ hr => allOrNone_mono hr id fun _ _ h => ⟨h.1.2, h.2⟩
  · intro s t v u h h' hl
    rw [Nat.zero_mul]
    refine CSpec.ofSpec fun N K st hst => (Shamir.spec_mulOpenVec hst.1 h h' hl).mono ?_
    rintro r s ⟨hr, rfl⟩
    exact ⟨hr, by rwa [Nat.zero_add] at hst⟩
  · cases inv <;> simp <;> omega

theorem sim_shamir [Codec M (List F)] [Codec M G] [Codec M (List G)] (N : Nat) :
    Sim (fun _ : Fin n => shamir (n := n) (M := M) (R := R) (F := F) (G := G) Seed) (IsShamir F t) (IsShamir F t)
      (fun {α} k p Q => MSpec (α := α) (fun _ k => SInv t buf₀ k) (fun _ => ZeroPair t buf₀) N k p Q)
      (fun {α} => CSpec (α := α) (fun _ k => SInv t buf₀ k) (fun _ => ZeroPair t buf₀)) where
  linear := linear_shamir
  evalPoly := by
    intro s v x h hne
    clear hne
    obtain ⟨l, rfl, hl⟩ := h
    show IsShamir F t (fun i => evalPublic (l.map (· i)) x) _
    induction hl with
    | nil => exact IsShamir.const t 0
    | @cons s v l vs h _ ih =>
      have := (ih.smul x).add h
      simp only [smul_eq_mul, mul_comm x] at this
      exact this
  msm pts h := msm_isShamir pts h
  mPure h := MSpec.pure h
  mBind h h' := MSpec.bind h h'
  cBind h h' := CSpec.bind h h'
  cPure h := CSpec.pure h
  mMono h h' := MSpec.mono h h'
  mWeak h hk := MSpec.weak (supply_shamir (M := M) (Seed := Seed)) h hk
  cWeak h hk := calc_shamir.weak h hk
  cMono h h' := CSpec.mono h h'
  first h := MSpec.first (supply_shamir (M := M) (Seed := Seed)) h
  join qs h1 h2 h3 := MSpec.join supply_shamir qs h1 h2 h3
  rand := CSpec.ofSpec fun N K st hst => (spec_rand_inv (by rwa [Nat.add_comm] at hst)).mono
    fun r s ⟨⟨v, hv, _⟩, hs⟩ => ⟨⟨v, hv⟩, hs⟩
  mulVec h h' hl := CSpec.ofSpec fun N K st hst => spec_mulVec_inv h h' hl hst
  addMulVec := by
    intro r s t' w v u hr hs ht hl hl'
    refine CSpec.ofSpec fun N K st hst => Spec.bind (spec_mulVec_inv hs ht hl hst) ?_
    rintro p s' ⟨hp, hs'⟩
    refine Spec.pure ⟨?_, hs'⟩
    have := Cols.zipWith (W := IsShamir F t) (f := fun _ x y => x + y) (g := (· + ·)) hp hr fun _ _ _ _ h h' => h.add h'
    have e : (fun i => addVec (p i) (r i)) = fun i => List.zipWith (· + ·) (p i) (r i) := by
      funext i
      have h1 := Cols.length hp i
      have h2 := Cols.length hr i
      rw [List.length_zipWith, ← hl, Nat.min_self, ← hl', ← h2] at h1
      unfold addVec
      rw [List.drop_eq_nil_of_le (by omega), List.append_nil]
    rw [e]
    exact this
  openVec := by
    intro s v h
    refine CSpec.ofSpec fun N K st hst => (Shamir.spec_openVec hst.1 h).mono ?_
    rintro r _ ⟨h, rfl⟩
    exact ⟨h, by rwa [Nat.zero_add] at hst⟩
  openPoints := by
    intro s v h
    refine CSpec.ofSpec fun N K st hst => (Shamir.spec_openVec hst.1 h).mono ?_
    rintro r _ ⟨h, rfl⟩
    exact ⟨h, by rwa [Nat.zero_add] at hst⟩
  openPoint := by
    intro s v h
    refine CSpec.ofSpec fun N K st hst => (Shamir.spec_openShare hst.1 h).mono ?_
    rintro r _ ⟨h, rfl⟩
    exact ⟨h, by rwa [Nat.zero_add] at hst⟩

theorem Spec.exists {ι S M E α β : Type} [DecidableEq ι] {p : ι → MPC ι S M E α} {st : ι → S}
    {Q : β → (ι → α) → (ι → S) → Prop} (h : Spec p st fun r s => ∃ v, Q v r s) : ∃ v, Spec p st (Q v) := by
  obtain ⟨r, l, h1, v, h2⟩ := h
  exact ⟨v, r, l, h1, h2⟩

end Verif.Plonk
