import Verif.Plonk.Drivers
import Verif.Plonk.Sim

/-!
# Lemmas: the plain driver of the PLONK prover
-/

namespace Verif.Plonk

variable {F G : Type} [Field F] [DecidableEq F] [AddCommGroup G] [Module F G] {ρ₀ : Nat → F} {N : Nat}

/-- The position in the sequence of random values. -/
def PInv (ρ₀ : Nat → F) (N k : Nat) (ρ : Nat → F) : Prop := ∃ j, (ρ = fun n => ρ₀ (j + n)) ∧ j + k ≤ N

/-- What a call does. -/
def PSpec (ρ₀ : Nat → F) (N : Nat) {α : Type} (k : Nat) (q : Unit → PlainM F α) (Q : (Unit → α) → Prop) : Prop :=
  ∀ K ρ, PInv ρ₀ N (k + K) ρ → ((∃ e, q () ρ = .error e) ∧ ∃ j < N, ρ₀ j = 0) ∨
    ∃ a ρ', q () ρ = .ok (a, ρ') ∧ Q (fun _ => a) ∧ PInv ρ₀ N K ρ'

omit [DecidableEq F] in
theorem calc_plain : Calc (c := PlainM F) (fun {α} => PSpec (α := α) ρ₀ N) where
  pure := by
    intro α a Q h K ρ hρ
    rw [Nat.zero_add] at hρ
    exact .inr ⟨a (), ρ, rfl, h, hρ⟩
  bind := by
    intro α β k j q f Q Q' h h' K ρ hρ
    rw [Nat.add_assoc] at hρ
    rcases h (j + K) ρ hρ with ⟨⟨e, he⟩, hb⟩ | ⟨a, ρ', ha, hQ, hρ'⟩
    · refine .inl ⟨⟨e, ?_⟩, hb⟩
      show (StateT.bind (q ()) (f ())) ρ = _
      simp only [StateT.bind, he]
      rfl
    · have e : (q () >>= f ()) ρ = f () a ρ' := by
        show (StateT.bind (q ()) (f ())) ρ = _
        simp only [StateT.bind, ha]
        rfl
      show ((∃ e, (q () >>= f ()) ρ = _) ∧ _) ∨ ∃ a ρ', (q () >>= f ()) ρ = _ ∧ _
      rw [e]
      exact h' _ hQ K ρ' hρ'
  mono := by
    intro α k q Q Q' h h' K ρ hρ
    rcases h K ρ hρ with h | ⟨a, ρ', ha, hQ, hρ'⟩
    · exact .inl h
    · exact .inr ⟨a, ρ', ha, h' _ hQ, hρ'⟩
  weak := by
    intro α k j q Q h hk K ρ hρ
    rcases h (j - k + K) ρ (by rwa [show k + (j - k + K) = j + K by omega]) with h | ⟨a, ρ', ha, hQ, i, hi, hl⟩
    · exact .inl h
    · exact .inr ⟨a, ρ', ha, hQ, i, hi, by omega⟩

/-- The value itself. -/
def Self (a : Unit → F) (v : F) : Prop := a () = v

omit [DecidableEq F] [Field F] in
theorem cols_self {a : Unit → List F} {v : List F} (h : Cols Self a v) : a () = v := by
  obtain ⟨l, rfl, hl⟩ := h
  induction hl with
  | nil => rfl
  | cons h _ ih => simp only [List.map_cons, ih]; rw [h]

omit [DecidableEq F] [Field F] in
theorem self_cols {a : Unit → List F} {v : List F} (h : a () = v) : Cols Self a v := by
  subst h
  refine ⟨(a ()).map fun x _ => x, ?_, ?_⟩
  · funext i; rw [List.map_map]; exact (List.map_id _).symm
  · rw [List.forall₂_map_left_iff]; exact List.forall₂_same.mpr fun _ _ => rfl

omit [DecidableEq F] in
theorem pspec_rand : PSpec ρ₀ N 1 (fun _ => plainRand) (fun a => ∃ x, Self a x ∧ (x = 0 → ∃ j < N, ρ₀ j = 0)) := by
  rintro K _ ⟨j, rfl, hj⟩
  refine .inr ⟨ρ₀ j, _, rfl, ⟨ρ₀ j, rfl, fun h => ⟨j, by omega, h⟩⟩, j + 1, ?_, by omega⟩
  funext n
  show ρ₀ (j + (n + 1)) = _
  congr 1
  omega

omit [DecidableEq F] in
theorem pspec_rands (l : List Nat) : PSpec ρ₀ N l.length (fun _ => l.mapM fun (_ : Nat) => plainRand)
    (fun a => ∃ v : List F, v.length = l.length ∧ Cols Self a v ∧ (0 ∈ v → ∃ j < N, ρ₀ j = 0)) := by
  induction l with
  | nil => exact calc_plain.pure (a := fun _ => []) ⟨[], rfl, Cols.nil, by simp⟩
  | cons x l ih =>
    simp only [List.mapM_cons]
    rw [List.length_cons, Nat.add_comm]
    refine calc_plain.bind pspec_rand fun a ⟨x, hx, hx0⟩ => ?_
    refine calc_plain.bind (j := 0) ih fun b ⟨v, hv, hb, hb0⟩ => ?_
    refine calc_plain.pure (a := fun i => a i :: b i) ⟨x :: v, by simp [hv, Nat.add_comm], Cols.cons hx hb, ?_⟩
    intro h
    rcases List.mem_cons.mp h with h | h
    · exact hx0 h.symm
    · exact hb0 h

theorem pspec_randInv (n : Nat) : PSpec ρ₀ N n (fun _ => randInv plainRand plainInvUnwrap n) fun r => ∃ v : List F, v.length = n ∧
    0 ∉ v ∧ Cols Self (fun i => (r i).1) v ∧ Cols Self (fun i => (r i).2) (v.map (·⁻¹)) := by
  unfold randInv
  have h := pspec_rands (ρ₀ := ρ₀) (N := N) (List.range n)
  rw [List.length_range] at h
  refine calc_plain.bind (j := 0) h fun a ⟨v, hv, ha, h0⟩ => ?_
  refine calc_plain.bind (k := 0) (j := 0) (Q := fun b => 0 ∉ v ∧ b () = v.map (·⁻¹)) ?_ fun b hb => ?_
  · intro K ρ hρ
    rw [Nat.zero_add] at hρ
    have := cols_self ha
    simp only [plainInvUnwrap, this]
    by_cases hz : 0 ∈ v
    · rw [if_pos hz]
      exact .inl ⟨⟨_, rfl⟩, h0 hz⟩
    · rw [if_neg hz]
      exact .inr ⟨_, _, rfl, ⟨hz, rfl⟩, hρ⟩
  · exact calc_plain.pure (a := fun i => (a i, b i)) ⟨v, hv, hb.1, ha, self_cols hb.2⟩

theorem prod_plain (ρ₀ : Nat → F) (N : Nat) : ProdSim (fun _ : Unit => plain (F := F) (G := G)) Self
    (fun {α} => PSpec (α := α) ρ₀ N) := by
  intro inv r s t w v u res hr hs ht h1 h2 hres
  refine spec_arrayProdMul (CS := fun {α} => PSpec (α := α) ρ₀ N) calc_plain 0 1 0 0 (P := Self)
    (mulVec := fun _ x y => pure (List.zipWith (· * ·) x y)) (rand := fun _ => plainRand) (invRand := fun _ => plainInvUnwrap)
    (invLast := fun _ => plainInvVec) (mulOpenVec := fun _ x y => pure (List.zipWith (· * ·) x y)) rfl
    (by rintro k x _ rfl; rfl) ?_ ?_ ?_ ?_ inv hr hs ht h1 h2 hres ?_
  · intro s t v u h h' hl
    rw [Nat.zero_mul]
    exact calc_plain.pure (a := fun _ => List.zipWith (· * ·) _ _)
      (self_cols (congrArg₂ (List.zipWith (· * ·)) (cols_self h) (cols_self h')))
  · intro n
    rw [Nat.one_mul]
    exact pspec_randInv n
  · intro s v h h0 K ρ hρ
    rw [Nat.zero_mul, Nat.zero_add] at hρ
    refine .inr ⟨v.map (·⁻¹), ρ, ?_, self_cols rfl, hρ⟩
    simp only [plainInvVec, cols_self h, if_neg h0]
  · intro s t v u h h' hl
    rw [Nat.zero_mul]
    refine calc_plain.pure (a := fun _ => List.zipWith (· * ·) _ _) ?_
    funext i
    exact congrArg₂ (List.zipWith (· * ·)) (cols_self h) (cols_self h')
  · cases inv <;> simp <;> omega

theorem sim_plain (ρ₀ : Nat → F) (N : Nat) : Sim (fun _ : Unit => plain (F := F) (G := G)) Self (fun a v => a () = v)
    (fun {α} => PSpec (α := α) ρ₀ N) (fun {α} => PSpec (α := α) ρ₀ N) where
  linear :=
    { zero := rfl
      add := by rintro x y _ _ rfl rfl; rfl
      sub := by rintro x y _ _ rfl rfl; rfl
      neg := by rintro x _ rfl; rfl
      smul := by rintro k x _ rfl; rfl
      addPub := by rintro x _ k rfl; rfl
      promote := fun k => rfl }
  evalPoly x h _ := by rw [← cols_self h]; rfl
  msm pts h := by rw [← cols_self h]; rfl
  mPure h := calc_plain.pure h
  mBind h h' := calc_plain.bind h h'
  cBind h h' := calc_plain.bind h h'
  cPure h := calc_plain.pure h
  mMono h h' := calc_plain.mono h h'
  mWeak h hk := calc_plain.weak h hk
  cWeak h hk := calc_plain.weak h hk
  cMono h h' := calc_plain.mono h h'
  first h := h
  join := by
    intro qs _ _ h
    clear * - h
    induction qs with
    | nil => exact calc_plain.pure (a := fun _ => []) ⟨[], .nil, rfl⟩
    | cons x qs ih =>
      rw [List.map_cons, List.sum_cons]
      show PSpec ρ₀ N _ (fun i => List.mapM (·.2) ((x.1, x.2.1 i) :: qs.map fun x => (x.1, x.2.1 i))) _
      simp only [List.mapM_cons]
      refine calc_plain.bind (h x (by simp)) fun a ha => ?_
      rw [← Nat.add_zero (qs.map (·.1)).sum]
      refine calc_plain.bind (ih fun y hy => h y (by simp [hy])) fun b hb => ?_
      obtain ⟨l, hl, rfl⟩ := hb
      refine (calc_plain (ρ₀ := ρ₀) (N := N)).pure (a := fun i => a i :: l.map (· i)) ?_
      exact ⟨a :: l, List.Forall₂.cons ha hl, rfl⟩
  rand := calc_plain.mono pspec_rand fun a ⟨x, hx, _⟩ => ⟨x, hx⟩
  mulVec h h' _ := by
    refine calc_plain.weak (k := 0) ?_ (Nat.zero_le _)
    have := self_cols (a := fun _ => List.zipWith (· * ·) _ _) (congrArg₂ (List.zipWith (· * ·)) (cols_self h) (cols_self h'))
    exact calc_plain.pure this
  addMulVec hr h h' _ _ := by
    refine calc_plain.weak (k := 0) ?_ (Nat.zero_le _)
    refine calc_plain.pure (a := fun i => List.zipWith (· + ·) _ (List.zipWith (· * ·) _ _)) (self_cols ?_)
    simp only [cols_self h, cols_self h', cols_self hr]
    rw [List.zipWith_comm_of_comm (fun _ _ => add_comm _ _)]
  openVec h := calc_plain.pure (by funext i; exact cols_self h)
  openPoints h := calc_plain.pure (by
    funext i
    obtain ⟨l, rfl, hl⟩ := h
    induction hl with
    | nil => rfl
    | cons h _ ih => simp only [List.map_cons] at ih ⊢; rw [ih, ← h])
  openPoint h := calc_plain.pure (by funext i; exact h)

theorem plain_zero_random (inv : Bool) (a1 a2 a3 : List F) (ρ : Nat → F) (h : ρ 0 = 0) :
    (plain (G := G)).arrayProdMul inv a1 a2 a3 ρ = .error (.panic "called `Result::unwrap()` on an `Err` value") := by
  have hr : ∀ n, randInv plainRand plainInvUnwrap (n + 1) ρ =
      .error (.panic "called `Result::unwrap()` on an `Err` value") := by
    intro n
    have hm : ∀ (l : List Nat) (ρ : Nat → F), ∃ r ρ', (l.mapM fun _ => plainRand) ρ = .ok (r, ρ') := by
      intro l
      induction l with
      | nil => exact fun ρ => ⟨[], ρ, rfl⟩
      | cons a l ih =>
        intro ρ
        obtain ⟨r, ρ', h⟩ := ih fun n => ρ (n + 1)
        refine ⟨ρ 0 :: r, ρ', ?_⟩
        rw [List.mapM_cons]
        show (StateT.bind plainRand _) ρ = _
        simp only [StateT.bind, plainRand, ok_bind]
        show (StateT.bind (l.mapM fun _ => plainRand) _) _ = _
        simp only [StateT.bind, h, ok_bind]
        rfl
    unfold randInv
    rw [List.range_succ_eq_map, List.mapM_cons]
    obtain ⟨r, ρ', hr⟩ := hm ((List.range n).map Nat.succ) fun n => ρ (n + 1)
    have e : (plainRand >>= fun b => (((List.range n).map Nat.succ).mapM fun _ => plainRand) >>= fun bs => pure (b :: bs) : PlainM F (List F)) ρ
        = .ok (0 :: r, ρ') := by
      show (StateT.bind plainRand _) ρ = _
      simp only [StateT.bind, plainRand, ok_bind]
      show (StateT.bind (((List.range n).map Nat.succ).mapM fun _ => plainRand) _) _ = _
      simp only [StateT.bind, hr, ok_bind, h]
      rfl
    show (StateT.bind _ _) ρ = _
    rw [StateT.bind, e]
    simp only [ok_bind]
    show (StateT.bind (plainInvUnwrap _) _) _ = _
    simp only [StateT.bind, plainInvUnwrap, List.mem_cons, true_or, if_true, error_bind]
  unfold plain arrayProdMul
  simp only [pure_bind]
  show (StateT.bind (randInv plainRand plainInvUnwrap _) _) ρ = _
  rw [StateT.bind, hr, error_bind]

theorem plain_rands (ρ : Nat → F) : (List.range 11).mapM (fun (_ : Nat) => plainRand) ρ =
    .ok ((List.range 11).map ρ, fun n => ρ (11 + n)) := by
  have : (fun n => ρ (11 + n)) = fun n => ρ (n + 1 + 1 + 1 + 1 + 1 + 1 + 1 + 1 + 1 + 1 + 1) := by
    funext n; congr 1; omega
  rw [this]
  rfl

end Verif.Plonk
