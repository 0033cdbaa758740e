import Verif.Honk.CoOinkLemmas
import Verif.Plonk.ShamirSim

/-!
# Lemmas: the memory records on shares, and the drivers of the collaborative Oink prover
-/

namespace Verif.Honk

open Plonk (Linear Calc)

theorem except_ok_bind {α β : Type} (a : α) (f : α → Except Err β) : (Except.ok a >>= f) = f a := rfl

section Records

variable {F : Type} [Field F]

theorem withRecords_nil (η : Eta F) (w : Fin 4 → Nat → F) : withRecords η w [] = w 3 := by
  funext i; simp [withRecords]

theorem withRecords_append (η : Eta F) (w : Fin 4 → Nat → F) (l : List (Nat × F)) (k : Nat) (f : F) :
    withRecords η w (l ++ [(k, f)]) =
      Function.update (withRecords η w l) k (withRecords η w l k + (plainRecord η w k + f)) := by
  funext i
  by_cases h : i = k
  · subst h
    simp [withRecords, plainRecord, List.filter_append, add_assoc]
  · have h' : ¬ k = i := fun e => h e.symm
    simp [withRecords, List.filter_append, h, h']

theorem plainReads_ok (η : Eta F) {size : Nat} (w : Fin 4 → Nat → F) (l : List (Nat × F)) (reads : List Nat)
    (h : ∀ i ∈ reads, i < size) :
    reads.foldlM (fun (w4 : Nat → F) i =>
      if i < size then Except.ok (ε := Err) (Function.update w4 i (w4 i + plainRecord η w i))
      else .error (.panic "index out of bounds")) (withRecords η w l) =
    .ok (withRecords η w (l ++ reads.map (·, 0))) := by
  induction reads generalizing l with
  | nil => simp [pure, Except.pure]
  | cons k ks ih =>
    rw [List.foldlM_cons, if_pos (h k (by simp))]
    have := withRecords_append η w l k 0
    rw [add_zero] at this
    rw [← this]
    have := ih (l ++ [(k, 0)]) fun i hi => h i (by simp [hi])
    simpa [bind, Except.bind] using this

theorem plainWrites_ok (η : Eta F) {size : Nat} (w : Fin 4 → Nat → F) (l : List (Nat × F)) (writes : List Nat)
    (h : ∀ i ∈ writes, i < size) :
    writes.foldlM (fun (w4 : Nat → F) i =>
      if i < size then Except.ok (ε := Err) (Function.update w4 i (w4 i + (plainRecord η w i + 1)))
      else .error (.panic "index out of bounds")) (withRecords η w l) =
    .ok (withRecords η w (l ++ writes.map (·, 1))) := by
  induction writes generalizing l with
  | nil => simp [pure, Except.pure]
  | cons k ks ih =>
    rw [List.foldlM_cons, if_pos (h k (by simp)), ← withRecords_append]
    have := ih (l ++ [(k, 1)]) fun i hi => h i (by simp [hi])
    simpa [bind, Except.bind] using this

theorem computeW4_ok (η : Eta F) {size : Nat} (w : Fin 4 → Nat → F) {reads writes : List Nat} (h : ∀ i ∈ reads ++ writes, i < size) :
    computeW4 η size reads writes w = .ok (withRecords η w (reads.map (·, 0) ++ writes.map (·, 1))) := by
  unfold computeW4
  have h1 := plainReads_ok η w [] reads fun i hi => h i (by simp [hi])
  rw [withRecords_nil, List.nil_append] at h1
  rw [h1]
  exact plainWrites_ok η w _ writes fun i hi => h i (by simp [hi])

end Records

section Shares

variable {ι F A : Type} {c : Type → Type} [Monad c] [Field F] [DecidableEq F] [Zero A] [Add A] [Sub A] [Neg A] [SMul F A]
  {d : ι → CoDriver c F A} {P : (ι → A) → F → Prop} (L : Linear P (fun i => (d i).addPub) (fun i => (d i).promote))

include L

omit [Monad c] in
theorem w4Inner_ok (η : Eta F) {size : Nat} {w : ι → Fin 4 → Nat → A} {v : Fin 4 → Nat → F}
    (hw : ∀ j, ColShares P (fun i => w i j) (v j)) {z : ι → Nat → A} {u : Nat → F} (hz : ColShares P z u) {k : Nat} (hk : k < size) :
    ∃ z', (∀ i, CoDriver.w4Inner η size (w i) (z i) k = .ok (z' i)) ∧
      ColShares P z' (Function.update u k (u k + plainRecord η v k)) := by
  refine ⟨_, fun i => if_pos hk, hz.update k ?_⟩
  have := L.add _ _ _ _ (L.add _ _ _ _ (L.add _ _ _ _ (hz k) (L.smul η.one _ _ (hw 0 k))) (L.smul η.two _ _ (hw 1 k)))
    (L.smul η.three _ _ (hw 2 k))
  have e : u k + η.one • v 0 k + η.two • v 1 k + η.three • v 2 k = u k + plainRecord η v k := by
    simp only [plainRecord, smul_eq_mul]; ring
  rwa [e] at this

variable (η : Eta F) {size : Nat} {w : ι → Fin 4 → Nat → A} {v : Fin 4 → Nat → F} (hw : ∀ j, ColShares P (fun i => w i j) (v j))

include hw

omit [Monad c] in
theorem coReads_ok (l : List (Nat × F)) (reads : List Nat) (h : ∀ i ∈ reads, i < size) {z : ι → Nat → A}
    (hz : ColShares P z (withRecords η v l)) :
    ∃ z', (∀ i, reads.foldlM (CoDriver.w4Inner η size (w i)) (z i) = .ok (z' i)) ∧
      ColShares P z' (withRecords η v (l ++ reads.map (·, 0))) := by
  induction reads generalizing l z with
  | nil => exact ⟨z, fun _ => rfl, by simpa using hz⟩
  | cons k ks ih =>
    obtain ⟨z', h1, h2⟩ := w4Inner_ok L η hw hz (h k (by simp))
    have e := withRecords_append η v l k 0
    rw [add_zero] at e
    rw [← e] at h2
    obtain ⟨z'', h3, h4⟩ := ih (l ++ [(k, 0)]) (fun i hi => h i (by simp [hi])) h2
    refine ⟨z'', fun i => ?_, by simpa using h4⟩
    rw [List.foldlM_cons, h1 i]
    exact h3 i

omit [Monad c] in
theorem coWrites_ok (l : List (Nat × F)) (writes : List Nat) (h : ∀ i ∈ writes, i < size) {z : ι → Nat → A}
    (hz : ColShares P z (withRecords η v l)) :
    ∃ z', (∀ i, writes.foldlM (fun w4 k => do
        let w4 ← CoDriver.w4Inner η size (w i) w4 k
        pure (Function.update w4 k ((d i).addPub (w4 k) 1))) (z i) = .ok (z' i)) ∧
      ColShares P z' (withRecords η v (l ++ writes.map (·, 1))) := by
  induction writes generalizing l z with
  | nil => exact ⟨z, fun _ => rfl, by simpa using hz⟩
  | cons k ks ih =>
    obtain ⟨z', h1, h2⟩ := w4Inner_ok L η hw hz (h k (by simp))
    have h2' := h2.update k (L.addPub _ _ 1 (h2 k))
    rw [Function.update_self, Function.update_idem, add_assoc, ← withRecords_append] at h2'
    obtain ⟨z'', h3, h4⟩ := ih (l ++ [(k, 1)]) (fun i hi => h i (by simp [hi])) h2'
    refine ⟨z'', fun i => ?_, by simpa using h4⟩
    rw [List.foldlM_cons, h1 i]
    exact h3 i

omit [Monad c] in
theorem coShared_ok (l : List (Nat × F)) (rows : List Nat) (h : ∀ i ∈ rows, i < size) {s : ι → List A} {flags : List F}
    (hs : Cols P s flags) {z : ι → Nat → A} (hz : ColShares P z (withRecords η v l)) :
    ∃ z', (∀ i, (rows.zip (s i)).foldlM (fun w4 x => do
        let w4 ← CoDriver.w4Inner η size (w i) w4 x.1
        pure (Function.update w4 x.1 (x.2 + w4 x.1))) (z i) = .ok (z' i)) ∧
      ColShares P z' (withRecords η v (l ++ rows.zip flags)) := by
  obtain ⟨sl, rfl, hs⟩ := hs
  induction hs generalizing l z rows with
  | nil => exact ⟨z, fun i => by simp [pure, Except.pure], by simpa using hz⟩
  | @cons x a sl flags hx _ ih =>
    cases rows with
    | nil => exact ⟨z, fun _ => rfl, by simpa using hz⟩
    | cons k ks =>
      obtain ⟨z', h1, h2⟩ := w4Inner_ok L η hw hz (h k (by simp))
      have h2' := h2.update k (L.add _ _ _ _ hx (h2 k))
      rw [Function.update_self, Function.update_idem, add_comm a, add_assoc, ← withRecords_append] at h2'
      obtain ⟨z'', h3, h4⟩ := ih (l ++ [(k, a)]) ks (fun i hi => h i (by simp [hi])) h2'
      refine ⟨z'', fun i => ?_, by simpa using h4⟩
      simp only [List.map_cons, List.zip_cons_cons, List.foldlM_cons, h1 i]
      exact h3 i

omit [Monad c] in
theorem coW4_ok {reads writes rows : List Nat} (h : ∀ i ∈ reads ++ writes ++ rows, i < size) {s : ι → List A} {flags : List F}
    (hs : Cols P s flags) :
    ∃ z, (∀ i, (d i).w4 η size reads writes (rows.zip (s i)) (w i) = .ok (z i)) ∧
      ColShares P z (withRecords η v (reads.map (·, 0) ++ writes.map (·, 1) ++ rows.zip flags)) := by
  obtain ⟨z1, h1, h1'⟩ := coReads_ok L η hw [] reads (fun i hi => h i (by simp [hi])) (z := fun i => w i 3)
    (by rw [withRecords_nil]; exact hw 3)
  obtain ⟨z2, h2, h2'⟩ := coWrites_ok L η hw _ writes (fun i hi => h i (by simp [hi])) h1'
  obtain ⟨z3, h3, h3'⟩ := coShared_ok L η hw _ rows (fun i hi => h i (by simp [hi])) hs h2'
  refine ⟨z3, fun i => ?_, by simpa using h3'⟩
  unfold CoDriver.w4
  rw [h1 i, except_ok_bind, h2 i, except_ok_bind]
  exact h3 i

end Shares

section Rep3

open Rep3 Plonk

variable {R M F : Type} [Field F] [DecidableEq F] [Sample R F] [Codec M (List F)] {ty : A2BType} {st₀ : PartyID → Rep3State R}

theorem cosim_rep3 (N : Nat) {B : Prop} (hB : DrawsZero F st₀ N → B) :
    CoSim (fun i => rep3Driver (R := R) (M := M) (F := F) i) IsShare B
      (fun {α} => CSpec (α := α) (M := M) (fun _ k => RInv F ty st₀ N k) (fun _ => B)) where
  linear := linear_rep3
  rules :=
    { pure := fun h => CSpec.pure h
      bind := fun h h' => CSpec.bind h h'
      mono := fun h h' => CSpec.mono h h'
      weak := by
        intro α k j q Q h hk N' K st hst
        refine (h N' (j - k + K) st ?_).mono fun _ hr => allOrNone_mono hr id fun v s hv => ⟨hv.1, ?_⟩
        · rwa [show k + (j - k + K) = j + K by omega]
        · obtain ⟨h, i, hi, hk⟩ := hv.2
          exact ⟨h, i, hi, by omega⟩ }
  rands m := by
    refine CSpec.ofSpec fun N' K st hst => (spec_rands_draws m hst.1).mono ?_
    rintro r _ ⟨h1, _, rfl⟩
    exact ⟨⟨_, by simp, h1, fun h => hB (hst.drawsZero h)⟩, hst.draws⟩
  mulMany := by
    intro s t v u h h' hl
    refine CSpec.ofSpec fun N' K st hst => (spec_mulVec_draws h h' hl hst.1).mono ?_
    rintro r _ ⟨h1, _, rfl⟩
    exact ⟨h1, hst.draws⟩
  mulOpenMany := by
    intro s t v u h h' hl
    refine CSpec.ofSpec fun N' K st hst => (spec_mulOpenVec_draws h h' hl hst.1).mono ?_
    rintro r _ ⟨h1, _, rfl⟩
    exact ⟨h1, hst.draws⟩
  invMany := by
    intro s x h h0 N' K st hst
    refine (spec_invVec_draws h hst.1).mono ?_
    rintro r (⟨e, he, hz⟩ | ⟨v, s, hv, hz, h1, _, rfl⟩)
    · refine .inl ⟨e, he, ?_⟩
      rcases zero_mem_zipWith_mul _ _ hz with hz | hz
      · exact h0 hz
      · exact hB (RInv.drawsZero (k := x.length + K)
          (by rwa [show x.length + (x.length + K) = 2 * x.length + K by omega]) hz)
    · refine .inr ⟨v, _, hv, ⟨fun hx => hz ?_, h1⟩, RInv.draws _ (by rwa [← Nat.two_mul])⟩
      obtain ⟨k, hk, hx⟩ := List.getElem_of_mem hx
      exact List.mem_iff_getElem.mpr ⟨k, by simpa using hk, by simp [hx]⟩
  fail := fun h α m Q N' K st _ => SpecE.bail (.inl ⟨m, fun _ => rfl, h⟩)

end Rep3

section Shamir

open Shamir Plonk

variable {n : Nat} {R M F : Type} [Field F] [DecidableEq F] [Sample R F] [Codec M (List F)] {t : Nat} {buf₀ : List (Fin n → F × F)}

theorem cosim_shamir : CoSim (fun _ : Fin n => shamirDriver (R := R) (M := M) (F := F)) (IsShamir F t) (ZeroPair t buf₀)
    (fun {α} => CSpec (α := α) (M := M) (fun _ k => SInv (R := R) t buf₀ k) (fun _ => ZeroPair t buf₀)) where
  linear := linear_shamir
  rules := calc_shamir
  rands m := CSpec.ofSpec fun N' K st hst => spec_rands_inv m (by simp) hst
  mulMany h h' hl := CSpec.ofSpec fun N' K st hst => spec_mulVec_inv h h' hl hst
  mulOpenMany := by
    intro s t' v u h h' hl
    refine calc_shamir.weak (k := 0) (CSpec.ofSpec fun N' K st hst => (Shamir.spec_mulOpenVec hst.1 h h' hl).mono ?_) (Nat.zero_le _)
    rintro r s ⟨hr, rfl⟩
    exact ⟨hr, by rwa [Nat.zero_add] at hst⟩
  invMany := by
    intro s v h h0
    refine calc_shamir.weak (k := v.length) (fun N' K st hst => specE_invVec_shamir h h0 hst) (by omega)
  fail := fun h α m Q N' K st _ => SpecE.bail (.inl ⟨m, fun _ => rfl, h⟩)

end Shamir

end Verif.Honk
