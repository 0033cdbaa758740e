import Verif.Honk.CoSumcheckSim

/-!
# Lemmas: the univariates of the collaborative sumcheck
-/

namespace Verif.Honk

open Plonk (Linear)

variable {ι S M F A : Type} [DecidableEq ι] [Field F] [DecidableEq F] [Zero A] [Add A] [Sub A] [Neg A] [SMul F A]

/-- The public columns and shares of the others. -/
structure CRel (P : (ι → A) → F → Prop) (pub : Col → List F) (shr : ι → Col → List A) (polys : Col → List F) : Prop where
  pub : ∀ c : Col, c.shared = false → pub c = polys c
  shr : ∀ c : Col, c.shared = true → Cols P (fun i => shr i c) (polys c)

omit [DecidableEq ι] [Field F] [DecidableEq F] [Zero A] [Add A] [Sub A] [Neg A] [SMul F A] in
theorem CRel.length {P : (ι → A) → F → Prop} {pub : Col → List F} {shr : ι → Col → List A} {polys : Col → List F}
    (h : CRel P pub shr polys) (i : ι) (c : Col) :
    (if c.shared then (shr i c).length else (pub c).length) = (polys c).length := by
  by_cases hc : c.shared = true
  · rw [if_pos hc, (h.shr c hc).length i]
  · rw [if_neg hc, h.pub c (by simpa using hc)]

theorem extend_edge {polys : Col → List F} {len : Nat} {T : Nat → Col → F} (h : Holds polys len T) (k : Nat) (hk : 2 * k + 2 ≤ len)
    (hd : Distinct F 8) (c : Col) :
    Univariate.extendFrom 7 ![(polys c).getD (2 * k) 0, (polys c).getD (2 * k + 1) 0] = edge T k c := by
  have := extendEdges_ok h k hk hd
  rw [extendEdges, if_pos (by simp [h.length, hk])] at this
  exact congrFun (Except.ok.inj this) c

/-- An edge in the clear. -/
def clearEdge (pub : Col → List F) (T : Nat → Col → F) (w : F) (k : Nat) : CoEdge F F :=
  ⟨fun c => Univariate.extendFrom 7 ![(pub c).getD (2 * k) 0, (pub c).getD (2 * k + 1) 0], edge T k, w⟩

section

variable {P : (ι → A) → F → Prop} {addPub : ι → A → F → A} {promote : ι → F → A} (hl : Linear P addPub promote)
  {pub : Col → List F} {shr : ι → Col → List A} {polys : Col → List F} (hc : CRel P pub shr polys)
  {len : Nat} {T : Nat → Col → F} (h : Holds polys len T) (hd : Distinct F 8)
include hl hc h hd

omit [DecidableEq ι] in
theorem coExtendEdges_ok (k : Nat) (hk : 2 * k + 2 ≤ len) (w : F) :
    ∃ E : ι → CoEdge F A, (∀ i, coExtendEdges pub (shr i) (2 * k) w = .ok (E i)) ∧ PEdge P E (clearEdge pub T w k) := by
  refine ⟨_, fun i => by rw [coExtendEdges, if_pos (by simp [hc.length i, h.length, hk])], fun i => rfl, fun i => rfl, fun c hcs j => ?_⟩
  simp only [clearEdge]
  rw [← extend_edge h k hk hd c]
  refine coExtendFrom_rel hl (by omega) 7 (fun j => ?_) j
  have e := hc.shr c hcs
  fin_cases j
  · exact Groth16.Cols.getD e hl.zero _
  · exact Groth16.Cols.getD e hl.zero _

omit [DecidableEq ι] [Zero A] [Add A] [Sub A] [Neg A] [SMul F A] hl in
theorem target_clearEdge (p : Params F) (k : Nat) (hk : 2 * k + 2 ≤ len) (w : F) (s : Subrel) (j : Fin s.len) :
    target p ((clearEdge pub T w k).pt (j.castLE s.len_le)) s = (if s.independent then w else 1)
      * s.value F p (fun c => T (2 * k) c + (T (2 * k + 1) c - T (2 * k) c) * ((j : Nat) : F)) := by
  rw [target]
  congr 2
  funext c
  simp only [Point.row, CoEdge.pt, clearEdge]
  by_cases hcs : c.shared = true
  · rw [if_pos hcs]
    rfl
  · rw [if_neg hcs, hc.pub c (by simpa using hcs), extend_edge h k hk hd c]
    rfl

omit [DecidableEq ι] in
theorem coEdge_ok (sep : Separator F) (k : Nat) (hk : 2 * k + 2 ≤ len) (w : F) (hw : index sep.products (k * sep.periodicity) = .ok w) :
    ∃ E : ι → CoEdge F A, (∀ i, coEdge sep pub (shr i) k = .ok (E i)) ∧ PEdge P E (clearEdge pub T w k) := by
  obtain ⟨E, hE, h1, h2, h3⟩ := coExtendEdges_ok hl hc h hd k hk 0
  refine ⟨fun i => { E i with s := w }, fun i => ?_, h1, fun _ => rfl, h3⟩
  rw [coEdge, hE]
  have e : (2 * k) >>> 1 = k := by rw [Nat.shiftRight_eq_div_pow]; omega
  rw [e, hw]
  rfl

end

omit [DecidableEq ι] [Field F] [DecidableEq F] [Zero A] [Add A] [Sub A] [Neg A] [SMul F A] in
theorem mapM_cols {α β' β : Type} {R : (ι → α) → β → Prop} (l : List β') (f : ι → β' → Except Err α) (g : β' → β)
    (h : ∀ b ∈ l, ∃ E : ι → α, (∀ i, f i b = .ok (E i)) ∧ R E (g b)) :
    ∃ Es : ι → List α, (∀ i, l.mapM (f i) = .ok (Es i)) ∧ Cols R Es (l.map g) := by
  induction l with
  | nil => exact ⟨fun _ => [], fun _ => rfl, Cols.nil⟩
  | cons b l ih =>
    obtain ⟨E, hE, hR⟩ := h b (by simp)
    obtain ⟨Es, hEs, hRs⟩ := ih fun b' hb => h b' (by simp [hb])
    refine ⟨fun i => E i :: Es i, fun i => ?_, hRs.cons hR⟩
    rw [List.mapM_cons, hE, hEs]
    rfl

theorem edgeBatches_flatten (m n : Nat) (hm : 0 < m) : (edgeBatches m n).flatten = List.range n := by
  have main : ∀ (L : List Nat) (j : Nat), ((List.range j).map fun b => (L.drop (b * m)).take m).flatten = L.take (j * m) := by
    intro L j
    induction j with
    | zero => simp
    | succ j ih =>
      rw [List.range_succ, List.map_append, List.flatten_append, ih, Nat.succ_mul, List.take_add]
      simp
  rw [edgeBatches, main, List.take_of_length_le]
  rw [List.length_range]
  have := Nat.div_add_mod (n + m - 1) m
  have h2 := Nat.mod_lt (n + m - 1) hm
  rw [mul_comm]
  omega

omit [DecidableEq ι] in
theorem coBatch_rel {P : (ι → A) → F → Prop} {addPub : ι → A → F → A} {promote : ι → F → A} (hl : Linear P addPub promote)
    {acc : ι → (s : Subrel) → Univariate A s.len} {V : Acc F} (ha : ∀ s j, P (fun i => acc i s j) (V s j)) (alphas : List F)
    (hal : alphas.length = 27) (sep : Separator F) (hs : sep.idx < sep.betas.length) :
    ∃ g : ι → Univariate A 8, (∀ i, coBatchOverRelations (acc i) alphas sep = .ok (g i)) ∧
      ∀ j, P (fun i => g i j) (roundUnivariate alphas (sep.betas.getD sep.idx 0) sep.partialResult V j) := by
  refine ⟨_, fun i => by rw [coBatchOverRelations, if_pos hal, Separator.currentElement, index_ok _ _ 0 hs]; rfl, fun j => ?_⟩
  have e : roundUnivariate alphas (sep.betas.getD sep.idx 0) sep.partialResult V j = Subrel.all.foldl (fun (r : F) s =>
      r + if s.independent then (Univariate.extendFrom 8 ![1, sep.betas.getD sep.idx 0] j * sep.partialResult)
          • Univariate.extendFrom 8 (fun i => V s i * scaleFactor 1 alphas s) j
        else Univariate.extendFrom 8 (fun i => V s i * scaleFactor 1 alphas s) j) 0 := by
    have hs : ∀ (l : List Subrel) (g : Subrel → F) (a : F), l.foldl (fun acc j => acc + g j) a = a + (l.map g).sum := by
      intro l g
      induction l with
      | nil => simp
      | cons b l ih => intro a; rw [List.foldl_cons, ih, List.map_cons, List.sum_cons, add_assoc]
    have hp : ∀ (l : List Subrel) (G : Subrel → Univariate F 8), (l.map G).sum j = (l.map fun s => G s j).sum := by
      intro l G
      induction l with
      | nil => rfl
      | cons a l ih => simp [ih]
    rw [hs, zero_add, roundUnivariate, hp]
    congr 1
    refine List.map_congr_left fun s _ => ?_
    split_ifs with hi
    · simp only [Pi.mul_apply, smul_eq_mul]
      ring
    · rfl
  rw [e]
  refine foldl_rel hl _ (fun s _ => ?_) hl.zero
  have hx : P (fun i => coExtendFrom F 8 (fun j => scaleFactor 1 alphas s • acc i s j) j)
      (Univariate.extendFrom 8 (fun i => V s i * scaleFactor 1 alphas s) j) := by
    refine coExtendFrom_rel hl (by cases s <;> decide) 8 (fun j => ?_) j
    rw [mul_comm]
    exact hl.smul _ _ _ (ha s j)
  split_ifs with hi
  · exact hl.smul _ _ _ hx
  · exact hx

omit [DecidableEq F] in
theorem ofFn_getD {n : Nat} (v : Fin n → F) (j : Fin n) : (List.ofFn v).getD j.1 0 = v j := by
  simp [List.getD]

namespace SumSim

variable {I : (ι → S) → Prop} {d : ι → SumDriver (MPC ι S M Err) F A} {P : (ι → A) → F → Prop} {H : (ι → F) → F → Prop}
  (h : SumSim I d P H) (p : Params F)
include h

theorem liftOk {α : Type} {f : ι → Except Err α} {v : ι → α} (hf : ∀ i, f i = .ok (v i)) {Q : (ι → α) → Prop} (hQ : Q v) :
    IS I (fun i => (d i).lift (f i)) Q := by
  simp only [hf, SumDriver.lift]
  exact IS.pure hQ

theorem batches {pub : Col → List F} {shr : ι → Col → List A} {polys : Col → List F} (hc : CRel P pub shr polys) {len : Nat}
    {T : Nat → Col → F} (hh : Holds polys len T) (hd : Distinct F 8) (sep : Separator F) (w : Nat → F) (bs : List (List Nat))
    (hk : ∀ k ∈ bs.flatten, 2 * k + 2 ≤ len ∧ index sep.products (k * sep.periodicity) = .ok (w k)) {a : ι → HalfAcc F A} {V : Acc F}
    (ha : AccRel P H a V) :
    IS I (fun i => bs.foldlM (fun acc ks => (d i).lift (ks.mapM (coEdge sep pub (shr i))) >>= fun edges =>
        Honk.accumulateBatch (d i) p acc edges) (a i)) fun a' =>
      AccRel P H a' fun s j => V s j + edgeSum p (bs.flatten.map fun k => clearEdge pub T (w k) k) s j := by
  induction bs generalizing a V with
  | nil =>
    have e : (fun s j => V s j + edgeSum p (([] : List (List Nat)).flatten.map fun k => clearEdge pub T (w k) k) s j : Acc F) = V := by
      funext s j
      simp [edgeSum]
    rw [e]
    exact IS.pure ha
  | cons ks bs ih =>
    simp only [List.foldlM_cons]
    obtain ⟨Es, hEs, hR⟩ := mapM_cols (R := PEdge P) ks (fun i => coEdge sep pub (shr i)) (fun k => clearEdge pub T (w k) k) fun k hk' => by
      have := hk k (by simp [hk'])
      exact coEdge_ok h.linear hc hh hd sep k this.1 _ this.2
    refine IS.bind (Q := fun a' => AccRel P H a' fun s j => V s j + edgeSum p (ks.map fun k => clearEdge pub T (w k) k) s j) ?_ fun a' ha' => ?_
    · exact (h.liftOk (v := Es) hEs (Q := fun r => r = Es) rfl).bind fun r hr => by
        subst hr
        exact h.accumulateBatch p hR ha
    · refine (ih (fun k hk' => hk k (by rw [List.flatten_cons, List.mem_append]; exact Or.inr hk')) ha').mono fun a'' ha'' => ?_
      have e : (fun s j => V s j + edgeSum p ((ks :: bs).flatten.map fun k => clearEdge pub T (w k) k) s j : Acc F)
          = fun s j => V s j + edgeSum p (ks.map fun k => clearEdge pub T (w k) k) s j
            + edgeSum p (bs.flatten.map fun k => clearEdge pub T (w k) k) s j := by
        funext s j
        rw [List.flatten_cons, List.map_append]
        simp only [edgeSum, List.map_append, List.sum_append, add_assoc]
      rw [e]
      exact ha''

omit [DecidableEq ι] [Zero A] [Add A] [Sub A] [Neg A] [SMul F A] h in
theorem edgeSum_eq {P : (ι → A) → F → Prop} {pub : Col → List F} {shr : ι → Col → List A} {polys : Col → List F}
    (hc : CRel P pub shr polys) {len : Nat} {T : Nat → Col → F}
    (hh : Holds polys len T) (hd : Distinct F 8) (w : Nat → F) (n : Nat) (hn : 2 * n ≤ len) (s : Subrel) (j : Fin s.len) :
    edgeSum p ((List.range n).map fun k => clearEdge pub T (w k) k) s j = ∑ k ∈ Finset.range n, (if s.independent then w k else 1)
      * s.value F p (fun c => T (2 * k) c + (T (2 * k + 1) c - T (2 * k) c) * ((j : Nat) : F)) := by
  rw [edgeSum, List.map_map, Finset.sum, Finset.range_val, Multiset.range, Multiset.map_coe, Multiset.sum_coe]
  congr 1
  refine List.map_congr_left fun k hk => ?_
  exact target_clearEdge hc hh hd p k (by have := List.mem_range.1 hk; omega) _ s j

theorem accZero : AccRel P H (fun _ => ⟨fun _ => 0, fun _ _ => 0⟩) (fun _ _ => 0) :=
  ⟨fun _ => h.hzero, fun _ _ _ => h.linear.zero⟩

theorem finish {a : ι → HalfAcc F A} {V : Acc F} (ha : AccRel P H a V) (alphas : List F)
    (hal : alphas.length = 27) (sep : Separator F) (hs : sep.idx < sep.betas.length) :
    IS I (fun i => Honk.reshareAcc (d i) (a i) >>= fun acc => (d i).lift (coBatchOverRelations acc alphas sep)) fun g =>
      ∀ j, P (fun i => g i j) (roundUnivariate alphas (sep.betas.getD sep.idx 0) sep.partialResult V j) := by
  refine (h.reshareAcc ha).bind fun acc hacc => ?_
  obtain ⟨g, hg, hP⟩ := coBatch_rel h.linear hacc alphas hal sep hs
  exact h.liftOk hg hP

/-- The univariate of a round. -/
theorem computeUnivariate {pub : Col → List F} {shr : ι → Col → List A} {polys : Col → List F} (hc : CRel P pub shr polys) {len : Nat}
    {T : Nat → Col → F} (hh : Holds polys len T) (hd : Distinct F 8) (sep : Separator F) (hs : sep.idx < sep.betas.length) (alphas : List F)
    (hal : alphas.length = 27) (n : Nat) (hn : 2 * n ≤ len) (bs : List F) (m : Nat) (hnm : n ≤ 2 ^ m) (hz : ZeroFrom (2 * n) T)
    (hw : ∀ k < n, index sep.products (k * sep.periodicity) = .ok (weight bs k)) :
    IS I (fun i => coComputeUnivariate (d i) p sep alphas pub (shr i) (2 * n)) fun g => ∀ j, P (fun i => g i j)
      (Univariate.ofPoly 8 (roundPoly (scaleFactor 1 alphas) p m (sep.betas.getD sep.idx 0) bs sep.partialResult T) j) := by
  have hf : (edgeBatches (2 ^ 19) ((2 * n + 1) / 2)).flatten = List.range n := by
    rw [edgeBatches_flatten _ _ (by positivity)]
    congr 1
    omega
  refine (h.batches p hc hh hd sep (weight bs) (edgeBatches (2 ^ 19) ((2 * n + 1) / 2)) (fun k hk => ?_) h.accZero).bind fun a ha => ?_
  · rw [hf, List.mem_range] at hk
    exact ⟨by omega, hw k hk⟩
  · rw [hf] at ha
    refine (h.finish ha alphas hal sep hs).mono fun g hg j => ?_
    have := hg j
    rwa [roundUnivariate_of_acc p alphas _ _ bs m n hnm T hz hd _ fun s i => by
      rw [zero_add]; exact edgeSum_eq p hc hh hd _ n hn s i] at this

/-- The univariate of a virtual round. -/
theorem virtualContribution {pub : Col → List F} {shr : ι → Col → List A} {polys : Col → List F} (hc : CRel P pub shr polys) {len : Nat}
    {T : Nat → Col → F} (hh : Holds polys len T) (hd : Distinct F 8) (sep : Separator F) (hs : sep.idx < sep.betas.length) (alphas : List F)
    (hal : alphas.length = 27) (hn : 2 ≤ len) (bs : List F) (m : Nat) (hz : ZeroFrom 2 T) :
    IS I (fun i => coVirtualContribution (d i) p sep alphas pub (shr i)) fun g => ∀ j, P (fun i => g i j)
      (Univariate.ofPoly 8 (roundPoly (scaleFactor 1 alphas) p m (sep.betas.getD sep.idx 0) bs sep.partialResult T) j) := by
  obtain ⟨E, hE, hR⟩ := coExtendEdges_ok h.linear hc hh hd 0 (by omega) 1
  refine (h.liftOk (v := E) hE (Q := fun r => r = E) rfl).bind fun r hr => ?_
  subst hr
  have hcols : Cols (PEdge P) (fun i => [r i]) [clearEdge pub T (1 : F) 0] := Cols.nil.cons hR
  refine (h.accumulateBatch p hcols h.accZero).bind fun a ha => ?_
  refine (h.finish ha alphas hal sep hs).mono fun g hg j => ?_
  have := hg j
  rwa [roundUnivariate_of_acc p alphas _ _ bs m 1 Nat.one_le_two_pow T hz hd _ fun s i => by
    rw [zero_add]
    have := edgeSum_eq p hc hh hd (weight bs) 1 hn s i
    rw [← this, edgeSum, edgeSum]
    simp [weight_zero]] at this

/-- The opened univariate. -/
theorem openUnivariate {g : ι → Univariate A 8} {v : Univariate F 8} (hg : ∀ j, P (fun i => g i j) (v j)) :
    IS I (fun i => Honk.openUnivariate (d i) (g i)) fun r => r = fun _ => v := by
  refine (h.openMany (cols_ofFn hg)).bind fun r hr => IS.pure ?_
  subst hr
  funext i j
  exact ofFn_getD v j

end SumSim

end Verif.Honk
