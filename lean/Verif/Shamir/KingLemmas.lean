import Verif.Shamir.PairLemmas

/-!
# Lemmas: degree reduction through the king
-/

namespace Verif.Shamir

variable {n : Nat} {F V R S M Seed : Type} [Field F] [AddCommGroup V] [Module F V]

/-- Party number `k`. -/
def pn (h0 : 0 < n) (k : Nat) : Fin n := fwd ⟨0, h0⟩ k

theorem pn_val (h0 : 0 < n) {k : Nat} (hk : k < n) : (pn h0 k).val = k := by
  rw [pn, fwd_val _ (by omega)]; simp [hk]

theorem party_eq (h0 : 0 < n) {k : Nat} (hk : k < n) :
    (party k : MPC (Fin n) S M Err (Fin n)) = pure (pn h0 k) := by
  rw [party, dif_pos hk]
  congr 1
  ext
  simp [pn_val h0 hk]

theorem foldl_columns (l : List (Fin n → V)) (ks : List (F × Nat)) (f : Nat → Fin n) (A : (Fin n → V) → V) :
    ks.foldl (fun acc (x : F × Nat) =>
      List.zipWith (fun acc m => acc + x.1 • m) acc (l.map fun y => y (f x.2))) (l.map A) =
    l.map fun y => A y + (ks.map fun x => x.1 • y (f x.2)).sum := by
  induction ks generalizing A with
  | nil => simp
  | cons k ks ih =>
    rw [List.foldl_cons]
    have : List.zipWith (fun acc m => acc + k.1 • m) (l.map A) (l.map fun y => y (f k.2)) =
        l.map fun y => A y + k.1 • y (f k.2) := by
      rw [List.zipWith_map, List.zipWith_self]
    rw [this, ih]
    simp [add_assoc]

/-- The king's sum is the opened value. -/
theorem king_sum (hF : PointsDistinct F n) (h0 : 0 < n) {t : Nat} (hb : 2 * t + 1 ≤ n) {s : Fin n → V}
    {v : V} (h : IsShamir F (2 * t) s v) :
    ((((List.range (2 * t + 1)).map (· + 1)).map
      (lag F ((List.range (2 * t + 1)).map (· + 1)))).zipIdx.map
        fun x => x.1 • s (pn h0 x.2)).sum = v := by
  obtain ⟨c, rfl, hc⟩ := h
  have hp : Points F ((List.range (2 * t + 1)).map (· + 1)) :=
    points_of_distinct hF (nodup_map_range fun a b _ _ he => by omega) (by
      intro k hk
      obtain ⟨j, hj, rfl⟩ := List.mem_map.mp hk
      have := List.mem_range.mp hj
      omega)
  have := reconstruct_poly hp (d := 2 * t) (by simp) c
  rw [reconstruct_map] at this
  rw [← this, List.map_map, List.zipIdx_map, List.map_map, List.map_map]
  have hz : (List.range (2 * t + 1)).zipIdx = (List.range (2 * t + 1)).map fun k => (k, k) := by
    apply List.ext_getElem <;> simp
  rw [hz, List.map_map]
  congr 1
  refine List.map_congr_left fun k hk => ?_
  have := List.mem_range.mp hk
  simp only [Function.comp_apply, Prod.map, id_eq]
  rw [hc, pn_val h0 (by omega)]

theorem msgsTo_pn (h0 : 0 < n) {N : Nat} (hN : N < n) (f : Fin n → M) (a : Fin n) :
    msgsTo a ((List.range N).map fun k => (pn h0 (k + 1), f (pn h0 (k + 1)))) =
      if 0 < a.val ∧ a.val ≤ N then [f a] else [] := by
  have h1 := msgsTo_map_id f ((List.range N).map fun k => pn h0 (k + 1)) (nodup_map_range
    fun x y hx hy he => by
      have := congrArg Fin.val he
      rw [pn_val h0 (by omega), pn_val h0 (by omega)] at this
      omega) a
  rw [List.map_map] at h1
  have h2 : a ∈ (List.range N).map (fun k => pn h0 (k + 1)) ↔ 0 < a.val ∧ a.val ≤ N := by
    simp only [List.mem_map, List.mem_range]
    constructor
    · rintro ⟨k, hk, rfl⟩
      rw [pn_val h0 (by omega)]; omega
    · rintro ⟨h, h'⟩
      exact ⟨a.val - 1, by omega, Fin.ext (by rw [pn_val h0 (by omega)]; omega)⟩
  simp only [h2] at h1
  exact h1

section

variable [Codec M (List V)]

theorem lrun_kingAccumulate (hF : PointsDistinct F n) (h0 : 0 < n) {t : Nat} (hb : 2 * t + 1 ≤ n)
    {s : Fin n → List V} {vs : List V} (h : IsShamirs F (2 * t) s vs) (σ : S) :
    LRun (M := M) (kingAccumulate (((List.range (2 * t + 1)).map (· + 1)).map
      (lag F ((List.range (2 * t + 1)).map (· + 1)))) (s (pn h0 0))) (pn h0 0) σ
      ((List.range (2 * t)).map fun k => (pn h0 (k + 1), Codec.enc (s (pn h0 (k + 1))))) [] vs σ := by
  set lg := ((List.range (2 * t + 1)).map (· + 1)).map (lag F ((List.range (2 * t + 1)).map (· + 1)))
  have hlg : lg.length = 2 * t + 1 := by simp [lg]
  have hlen := h.length
  unfold kingAccumulate
  have e := LRun.foldlM (M := M) (E := Err) (i := pn h0 0) (s := σ) (l := lg.zipIdx)
    (P := fun _ => True) (a := List.replicate (s (pn h0 0)).length 0)
    (f := fun (acc : List V) (x : F × Nat) => do
      let (l, other) := x
      if other = 0 then pure (List.zipWith (fun acc m => acc + l • m) acc (s (pn h0 0)))
      else
        let other ← party other
        let r : List V ← recvMany other
        if r.length ≠ (s (pn h0 0)).length then
          MPC.bail "During execution of degree_reduce_vec in MPC: Invalid number of elements received"
        else pure (List.zipWith (fun acc m => acc + l • m) acc r))
    (g := fun acc x => List.zipWith (fun acc m => acc + x.1 • m) acc (s (pn h0 x.2)))
    (inp := fun x => if x.2 = 0 then [] else [(pn h0 x.2, Codec.enc (s (pn h0 x.2)))])
    (out := fun _ => []) trivial (by
      rintro ⟨l, k⟩ hx acc _
      refine ⟨?_, trivial⟩
      have hk : k < n := by
        have := List.snd_lt_of_mem_zipIdx hx
        omega
      by_cases hk0 : k = 0
      · subst hk0
        simp only [if_true]
        exact LRun.pure _ _ _
      · simp only [hk0, if_false]
        rw [party_eq h0 hk, pure_bind]
        have := LRun.bind (k := fun r : List V => if r.length ≠ (s (pn h0 0)).length then
          MPC.bail "During execution of degree_reduce_vec in MPC: Invalid number of elements received"
          else pure (List.zipWith (fun acc m => acc + l • m) acc r))
          (LRun.recv (M := M) (pn h0 k) (s (pn h0 k)) (pn h0 0) σ) (by
            rw [if_neg (by rw [hlen, hlen]; simp)]
            exact LRun.pure _ _ _)
        simpa [recvMany] using this)
  have e1 : lg.zipIdx.flatMap (fun x => if x.2 = 0 then [] else
      [(pn h0 x.2, Codec.enc (M := M) (s (pn h0 x.2)))]) =
      (List.range (2 * t)).map fun k => (pn h0 (k + 1), Codec.enc (s (pn h0 (k + 1)))) := by
    have : ∀ (l : List F) (m : Nat), m ≠ 0 → (l.zipIdx m).flatMap (fun x => if x.2 = 0 then [] else
        [(pn h0 x.2, Codec.enc (M := M) (s (pn h0 x.2)))]) =
        (List.range l.length).map fun k => (pn h0 (k + m), Codec.enc (s (pn h0 (k + m)))) := by
      intro l
      induction l with
      | nil => simp
      | cons x xs ih =>
        intro m hm
        rw [List.zipIdx_cons, List.flatMap_cons, ih (m + 1) (by omega), List.length_cons,
          List.range_succ_eq_map]
        simp [hm, Function.comp_def, Nat.add_assoc, Nat.add_comm, Nat.add_left_comm]
    obtain ⟨x, xs, hx⟩ : ∃ x xs, lg = x :: xs := by
      cases hl : lg with
      | nil => rw [hl] at hlg; simp at hlg
      | cons x xs => exact ⟨x, xs, rfl⟩
    have hxs : xs.length = 2 * t := by rw [hx] at hlg; simpa using hlg
    rw [hx, List.zipIdx_cons, List.flatMap_cons, this _ _ (by omega), hxs]
    simp
  have e2 : lg.zipIdx.foldl (fun acc x => List.zipWith (fun acc m => acc + x.1 • m) acc (s (pn h0 x.2)))
      (List.replicate (s (pn h0 0)).length 0) = vs := by
    obtain ⟨l, rfl, hl⟩ := h
    have hr : List.replicate (l.map fun x => x (pn h0 0)).length (0 : V) = l.map fun _ => 0 := by
      simp
    rw [hr, foldl_columns l lg.zipIdx (pn h0) (fun _ => 0)]
    clear hr e e1 hlen
    induction hl with
    | nil => rfl
    | @cons x v xs vs hx _ ih =>
      rw [List.map_cons, ih, zero_add, king_sum hF h0 hb hx]
  rw [e1, flatMap_const_nil, e2] at e
  exact e

/-- The values the king gives to party number `k`. -/
def kingVals (zeros : List F) (vs : List V) (k : Nat) : List V :=
  vs.map fun v => horner zeros ((k + 1 : Nat) : F) • v

omit [Codec M (List V)] in
theorem kingVals_eq (zeros : List F) (vs : List V) (k : Nat) :
    (vs.map (polyWithZerosFromPrecomputed · zeros)).map (evaluatePoly · ((k + 1 : Nat) : F)) =
      kingVals zeros vs k := by
  simp [kingVals, polyWithZerosFromPrecomputed, evaluatePoly_eq, horner_map_smul]

theorem lrun_kingDeal (h0 : 0 < n) (N : Nat) (hN : N + 1 ≤ n) (zeros : List F) (vs : List V) (σ : S) :
    LRun (M := M) ((List.range (N + 1)).foldlM (fun (mine : List V) (k : Nat) => do
      let vals := (vs.map (polyWithZerosFromPrecomputed · zeros)).map (evaluatePoly · ((k + 1 : Nat) : F))
      if k = (pn h0 0).val then pure vals
      else
        let dst ← party k
        sendMany dst vals
        pure mine) []) (pn h0 0) σ []
      ((List.range N).map fun k => (pn h0 (k + 1), Codec.enc (kingVals zeros vs (k + 1))))
      (kingVals zeros vs 0) σ := by
  have e := LRun.foldlM (M := M) (E := Err) (i := pn h0 0) (s := σ) (l := List.range (N + 1))
    (P := fun _ => True) (a := ([] : List V))
    (f := fun (mine : List V) (k : Nat) => do
      let vals := (vs.map (polyWithZerosFromPrecomputed · zeros)).map (evaluatePoly · ((k + 1 : Nat) : F))
      if k = (pn h0 0).val then pure vals
      else
        let dst ← party k
        sendMany dst vals
        pure mine)
    (g := fun mine k => if k = 0 then kingVals zeros vs 0 else mine)
    (inp := fun _ => [])
    (out := fun k => if k = 0 then [] else [(pn h0 k, Codec.enc (kingVals zeros vs k))])
    trivial (by
      intro k hk acc _
      refine ⟨?_, trivial⟩
      have hk := List.mem_range.mp hk
      simp only [kingVals_eq, pn_val h0 h0]
      by_cases hk0 : k = 0
      · subst hk0
        simp only [if_true]
        exact LRun.pure _ _ _
      · simp only [hk0, if_false]
        rw [party_eq h0 (by omega), pure_bind]
        exact LRun.bind (k := fun _ => pure acc) (LRun.send (M := M) _ _ _ _) (LRun.pure _ _ _))
  have e1 : (List.range (N + 1)).foldl (fun mine k => if k = 0 then kingVals zeros vs 0 else mine) [] =
      kingVals zeros vs 0 := by
    rw [List.range_succ_eq_map, List.foldl_cons]
    simp only [if_true]
    generalize List.range N = l
    generalize kingVals zeros vs 0 = w
    induction l with
    | nil => rfl
    | cons x xs ih => simpa using ih
  have e2 : (List.range (N + 1)).flatMap (fun k => if k = 0 then [] else
      [(pn h0 k, Codec.enc (M := M) (kingVals zeros vs k))]) =
      (List.range N).map fun k => (pn h0 (k + 1), Codec.enc (kingVals zeros vs (k + 1))) := by
    rw [List.range_succ_eq_map]
    rw [List.flatMap_cons, List.flatMap_map]
    simp [List.map_eq_flatMap]
  rw [e1, e2, flatMap_const_nil] at e
  exact e

theorem kingReshare_king (inputs : List V) {i : Fin n} (st : ShamirState n R F) (hi : i.val = 0) :
    kingReshare (M := M) inputs i st = (do
          let acc ← kingAccumulate st.mulLagrange2T inputs
          (List.range (n - st.rng.threshold)).foldlM (fun (mine : List V) (k : Nat) => do
            let vals := (acc.map (polyWithZerosFromPrecomputed · st.mulReconstructWithZeros)).map
              (evaluatePoly · ((k + 1 : Nat) : F))
            if k = i.val then pure vals
            else
              let dst ← party k
              sendMany dst vals
              pure mine) [] : ShamirM n R F M (List V)) i st := by
  show ((if i.val = 0 then _ else _ : ShamirM n R F M (List V)) i st) = _
  rw [if_pos hi]

theorem kingReshare_other (inputs : List V) {i : Fin n} (st : ShamirState n R F) (hi : i.val ≠ 0) :
    kingReshare (M := M) inputs i st = (do
          if i.val ≤ st.rng.threshold * 2 then
            let king ← party 0
            sendMany king inputs
          if i.val < n - st.rng.threshold then
            let king ← party 0
            let r : List V ← recvMany king
            if r.length ≠ inputs.length then
              MPC.bail "During execution of degree_reduce_vec in MPC: Invalid number of elements received"
            else pure r
          else pure (List.replicate inputs.length 0) : ShamirM n R F M (List V)) i st := by
  show ((if i.val = 0 then _ else _ : ShamirM n R F M (List V)) i st) = _
  rw [if_neg hi]

/-- What the parties hold after the king's resharing. -/
def reshared (t : Nat) (zeros : List F) (vs : List V) (i : Fin n) : List V :=
  if i.val < n - t then kingVals zeros vs i.val else List.replicate vs.length 0

theorem spec_kingReshare {t : Nat} {st : Fin n → ShamirState n R F} (hst : ShCorr t st)
    {s : Fin n → List V} {vs : List V} (h : IsShamirs F (2 * t) s vs) :
    Spec (M := M) (fun i => kingReshare (s i)) st
      (fun r st' => IsShamirs F t r vs ∧ st' = st) := by
  have hb := hst.rng.bound
  have hl := hst.rng.live
  have h0 : 0 < n := by omega
  have hlen := h.length
  set king := pn h0 0 with hking
  have hkv : king.val = 0 := pn_val h0 h0
  set zeros := (st king).mulReconstructWithZeros
  have hz := hst.zeros king
  refine Spec.round₂ (p := fun i => kingReshare (s i))
    (out₁ := fun i => if i.val = 0 then [] else if i.val ≤ 2 * t then [(king, Codec.enc (s i))] else [])
    (inp₂ := fun i => if i.val = 0 then
      (List.range (2 * t)).map fun k => (pn h0 (k + 1), Codec.enc (s (pn h0 (k + 1)))) else [])
    (out₂ := fun i => if i.val = 0 then
      (List.range (n - t - 1)).map fun k => (pn h0 (k + 1), Codec.enc (kingVals zeros vs (k + 1))) else [])
    (inp₃ := fun i => if i.val = 0 then [] else if i.val < n - t then
      [(king, Codec.enc (kingVals zeros vs i.val))] else [])
    (q₁ := fun i => if i.val = 0 then kingReshare (s i) i (st i) else
      if i.val < n - t then (do
        let r : List V ← recvMany king
        if r.length ≠ (s i).length then
          MPC.bail "During execution of degree_reduce_vec in MPC: Invalid number of elements received"
        else pure r : ShamirM n R F M (List V)) i (st i)
      else .ret (List.replicate (s i).length 0, st i))
    (q₂ := fun i => if i.val = 0 then .ret (kingVals zeros vs 0, st i) else
      if i.val < n - t then (do
        let r : List V ← recvMany king
        if r.length ≠ (s i).length then
          MPC.bail "During execution of degree_reduce_vec in MPC: Invalid number of elements received"
        else pure r : ShamirM n R F M (List V)) i (st i)
      else .ret (List.replicate (s i).length 0, st i))
    (v := reshared t zeros vs) (st' := st) ?_ ?_ ?_ ?_ ?_ ?_ ?_ ⟨?_, rfl⟩
  · -- parties send to the king
    intro i
    by_cases hi : i.val = 0
    · simp only [hi, if_true]; exact LSteps.refl _
    · simp only [hi, if_false]
      rw [kingReshare_other _ _ hi, hst.rng.thr, Nat.mul_comm t 2]
      simp only [party_eq h0 h0, pure_bind]
      by_cases h2 : i.val ≤ 2 * t
      · simp only [h2, if_true]
        by_cases h3 : i.val < n - t
        · simp only [h3, if_true]
          have := LRun.then (k := fun _ => (do
            let r : List V ← recvMany king
            if r.length ≠ (s i).length then
              MPC.bail "During execution of degree_reduce_vec in MPC: Invalid number of elements received"
            else pure r : ShamirM n R F M (List V))) (LRun.send (M := M) king (s i) i (st i)) (LSteps.refl _)
          exact this
        · simp only [h3, if_false]
          exact LRun.then (k := fun _ => pure _) (LRun.send (M := M) king (s i) i (st i)) (LSteps.refl _)
      · simp only [h2, if_false]
        by_cases h3 : i.val < n - t
        · simp only [h3, if_true]
          exact LSteps.refl _
        · simp only [h3, if_false]
          exact LSteps.refl _
  · -- the king receives and deals
    intro i
    by_cases hi : i.val = 0
    · have : i = king := Fin.ext (by rw [hi, hkv])
      subst this
      simp only [hkv, if_true]
      rw [kingReshare_king _ _ hkv, hst.mulLag, hst.rng.thr]
      have e3 := LRun.bind (k := fun acc => (List.range (n - t - 1 + 1)).foldlM (fun (mine : List V) (k : Nat) => do
            let vals := (acc.map (polyWithZerosFromPrecomputed · zeros)).map
              (evaluatePoly · ((k + 1 : Nat) : F))
            if k = king.val then pure vals
            else
              let dst ← party k
              sendMany dst vals
              pure mine) []) (lrun_kingAccumulate (M := M) hst.rng.field h0 hb h (st king))
        (lrun_kingDeal (M := M) h0 (n - t - 1) (by omega) zeros vs (st king))
      simp only [List.append_nil, List.nil_append, show n - t - 1 + 1 = n - t by omega] at e3
      exact e3
    · simp only [hi, if_false]; exact LSteps.refl _
  · -- the parties receive
    intro i
    by_cases hi : i.val = 0
    · simp only [hi, if_true]
      rw [reshared, if_pos (by omega), hi]
      exact LSteps.refl _
    · simp only [hi, if_false]
      by_cases hin : i.val < n - t
      · simp only [hin, if_true]
        have := LRun.bind (k := fun r : List V => if r.length ≠ (s i).length then
          MPC.bail "During execution of degree_reduce_vec in MPC: Invalid number of elements received"
          else pure r) (LRun.recv (M := M) king (kingVals zeros vs i.val) i (st i)) (by
            rw [if_neg (by rw [hlen]; simp [kingVals])]
            exact LRun.pure _ _ _)
        rw [reshared, if_pos hin]
        exact this
      · simp only [hin, if_false]
        rw [reshared, if_neg hin, hlen]
        exact LSteps.refl _
  · intro a b
    by_cases hb0 : b.val = 0
    · have hbk : b = king := Fin.ext (by rw [hb0, hkv])
      subst hbk
      simp only [hkv, if_true]
      rw [msgsTo_pn h0 (by omega) (fun i => Codec.enc (s i)) a]
      by_cases ha : a.val = 0
      · simp [ha]
      · by_cases ha2 : a.val ≤ 2 * t
        · simp [ha, ha2, msgsTo, Nat.pos_of_ne_zero ha]
        · simp [ha, ha2]
    · simp only [hb0, if_false]
      have : king ≠ b := fun h => hb0 (by rw [← h, hkv])
      split
      · rfl
      · split
        · simp [msgsTo, this]
        · rfl
  · intro a b
    by_cases ha : a.val = 0
    · have hak : a = king := Fin.ext (by rw [ha, hkv])
      subst hak
      simp only [hkv, if_true]
      have e : (List.range (n - t - 1)).map (fun k => (pn h0 (k + 1),
          Codec.enc (M := M) (kingVals zeros vs (k + 1)))) =
          (List.range (n - t - 1)).map (fun k => (pn h0 (k + 1),
            (fun i : Fin n => Codec.enc (M := M) (kingVals zeros vs i.val)) (pn h0 (k + 1)))) :=
        List.map_congr_left fun k hk => by
          have := List.mem_range.mp hk
          simp only [pn_val h0 (show k + 1 < n by omega)]
      rw [e, msgsTo_pn h0 (by omega) (fun i : Fin n => Codec.enc (M := M) (kingVals zeros vs i.val)) b]
      by_cases hb0 : b.val = 0
      · simp [hb0]
      · by_cases hb1 : b.val < n - t
        · simp [hb0, hb1, msgsTo, Nat.pos_of_ne_zero hb0, show b.val ≤ n - t - 1 by omega]
        · simp [hb0, hb1, show ¬ b.val ≤ n - t - 1 by omega]
    · have : king ≠ a := fun h => ha (by rw [← h, hkv])
      simp only [ha, if_false]
      split
      · rfl
      · split
        · simp [msgsTo, this]
        · rfl
  · intro i
    by_cases hi : i.val = 0
    · simp only [hi, if_true, List.map_map, List.mem_map, List.mem_range, Function.comp_apply]
      rintro ⟨k, hk, he⟩
      have := congrArg Fin.val he
      rw [pn_val h0 (by omega)] at this
      omega
    · simp [hi]
  · intro i
    by_cases hi : i.val = 0
    · simp [hi]
    · by_cases hin : i.val < n - t
      · simp only [hi, hin, if_true, if_false, List.map_cons, List.map_nil, List.mem_singleton]
        intro he
        exact hi (by rw [he, hkv])
      · simp [hi, hin]
  · -- correctness
    have e : reshared t zeros vs = fun i : Fin n =>
        (vs.map fun v => fun i : Fin n => horner zeros ((i.val + 1 : Nat) : F) • v).map (· i) := by
      funext i
      rw [reshared, List.map_map]
      split
      · rfl
      · next hi =>
        have := hz.2.2 i (by omega)
        simp only [point] at this
        simp only [Function.comp_def, zeros, this, zero_smul]
        simp
    refine ⟨_, e, ?_⟩
    rw [List.forall₂_map_left_iff, List.forall₂_same]
    intro v _
    have := (isShamir_of_horner (F := F) (n := n) hz.1).linear (LinearMap.toSpanSingleton F V v)
    simpa [hz.2.1, zeros] using this

end

/-! ## Degree reduction and multiplication -/

section

variable [Sample R F] [Codec M (List F)]

theorem spec_degreeReduceMany {t : Nat} {st : Fin n → ShamirState n R F} (hst : ShCorr t st)
    {s : Fin n → List F} {vs : List F} (h : IsShamirs F (2 * t) s vs) :
    Spec (M := M) (fun i => degreeReduceMany (s i)) st
      (fun r st' => IsShamirs F t r vs ∧ ShCorr t st') := by
  unfold degreeReduceMany
  refine Spec.bind (Spec.mapCols (P := IsShamir F (2 * t))
    (Q := fun (x : Fin n → F × F) (v : F) => ∃ r, IsShamir F (2 * t) (fun i => (x i).1) (v + r) ∧
      IsShamir F t (fun i => (x i).2) r) (g := fun v => v) (I := ShCorr t) h ?_ hst) ?_
  · intro x v st hx hI
    refine Spec.bind (spec_getPair' hI) ?_
    rintro p st' ⟨⟨r, h1, h2⟩, hI'⟩
    rw [Nat.mul_comm t 2] at h2
    exact Spec.pure ⟨⟨r, hx.add h2, h1⟩, hI'⟩
  · rintro masked st' ⟨hm, hst'⟩
    obtain ⟨l, rfl, hl⟩ := hm
    rw [List.map_id'] at hl
    obtain ⟨rs, hrs, h1, h2⟩ : ∃ rs : List F, rs.length = vs.length ∧
        List.Forall₂ (fun (x : Fin n → F × F) w => IsShamir F (2 * t) (fun i => (x i).1) w) l
          (List.zipWith (· + ·) vs rs) ∧
        List.Forall₂ (fun (x : Fin n → F × F) w => IsShamir F t (fun i => (x i).2) w) l rs := by
      clear h
      induction hl with
      | nil => exact ⟨[], rfl, .nil, .nil⟩
      | @cons x v xs vs hx _ ih =>
        obtain ⟨r, hr1, hr2⟩ := hx
        obtain ⟨rs, e, e1, e2⟩ := ih
        exact ⟨r :: rs, by simp [e], .cons hr1 e1, .cons hr2 e2⟩
    have hA : IsShamirs F (2 * t) (fun i => (l.map (· i)).map Prod.fst) (List.zipWith (· + ·) vs rs) :=
      ⟨l.map fun x i => (x i).1, by funext i; simp, by
        rw [List.forall₂_map_left_iff]; exact h1⟩
    have hB : IsShamirs F t (fun i => (l.map (· i)).map Prod.snd) rs :=
      ⟨l.map fun x i => (x i).2, by funext i; simp, by
        rw [List.forall₂_map_left_iff]; exact h2⟩
    refine Spec.bind (spec_kingReshare hst' hA) ?_
    rintro sh st'' ⟨hsh, rfl⟩
    refine Spec.pure ⟨?_, hst'⟩
    have : IsShamirs F t (fun i => List.zipWith (· - ·) (sh i) ((l.map (· i)).map Prod.snd))
        (List.zipWith (· - ·) (List.zipWith (· + ·) vs rs) rs) :=
      Cols.zipWith hsh hB fun x v y u hx hy => hx.sub hy
    have e : List.zipWith (· - ·) (List.zipWith (· + ·) vs rs) rs = vs := by
      apply List.ext_getElem
      · simp [hrs]
      · intro k h1 h2; simp
    rw [e] at this
    exact this

theorem isShamirs_singleton {d : Nat} {s : Fin n → V} {v : V} (h : IsShamir F d s v) :
    IsShamirs F d (fun i => [s i]) [v] := ⟨[s], rfl, .cons h .nil⟩

theorem isShamirs_singleton' {d : Nat} {s : Fin n → List V} {v : V} (h : IsShamirs F d s [v]) :
    ∃ x : Fin n → V, (s = fun i => [x i]) ∧ IsShamir F d x v := by
  obtain ⟨l, rfl, hl⟩ := h
  cases hl with
  | cons h h' => cases h'; exact ⟨_, rfl, h⟩

theorem spec_degreeReduce {t : Nat} {st : Fin n → ShamirState n R F} (hst : ShCorr t st)
    {s : Fin n → F} {v : F} (h : IsShamir F (2 * t) s v) :
    Spec (M := M) (fun i => degreeReduce (s i)) st (fun r st' => IsShamir F t r v ∧ ShCorr t st') := by
  unfold degreeReduce
  refine Spec.bind (spec_degreeReduceMany hst (isShamirs_singleton h)) ?_
  rintro r st' ⟨hr, hst'⟩
  obtain ⟨x, rfl, hx⟩ := isShamirs_singleton' hr
  exact Spec.pure ⟨hx, hst'⟩

theorem spec_degreeReducePoint [Codec M (List V)] {t : Nat} {st : Fin n → ShamirState n R F}
    (hst : ShCorr t st) (gen : V) {s : Fin n → V} {v : V} (h : IsShamir F (2 * t) s v) :
    Spec (M := M) (fun i => degreeReducePoint gen (s i)) st
      (fun r st' => IsShamir F t r v ∧ ShCorr t st') := by
  unfold degreeReducePoint
  refine Spec.bind (spec_getPair' hst) ?_
  rintro p st' ⟨⟨r, h1, h2⟩, hst'⟩
  rw [Nat.mul_comm t 2] at h2
  have h3 := h2.linear (LinearMap.toSpanSingleton F V gen)
  have h4 := h1.linear (LinearMap.toSpanSingleton F V gen)
  simp only [LinearMap.toSpanSingleton_apply] at h3 h4
  refine Spec.bind (spec_kingReshare hst' (isShamirs_singleton (h.add h3))) ?_
  rintro sh st'' ⟨hsh, rfl⟩
  obtain ⟨x, rfl, hx⟩ := isShamirs_singleton' hsh
  refine Spec.pure ⟨?_, hst'⟩
  have := hx.sub h4
  simpa using this

theorem spec_mul {t : Nat} {st : Fin n → ShamirState n R F} (hst : ShCorr t st)
    {a b : Fin n → F} {x y : F} (ha : IsShamir F t a x) (hb : IsShamir F t b y) :
    Spec (M := M) (fun i => mul (a i) (b i)) st (fun r st' => IsShamir F t r (x * y) ∧ ShCorr t st') := by
  have := ha.mul hb
  rw [← Nat.two_mul] at this
  exact spec_degreeReduce hst this

theorem spec_mulVec {t : Nat} {st : Fin n → ShamirState n R F} (hst : ShCorr t st)
    {a b : Fin n → List F} {xs ys : List F} (ha : IsShamirs F t a xs) (hb : IsShamirs F t b ys) :
    Spec (M := M) (fun i => mulVec (a i) (b i)) st
      (fun r st' => IsShamirs F t r (List.zipWith (· * ·) xs ys) ∧ ShCorr t st') := by
  have := isShamirs_mul ha hb
  rw [← Nat.two_mul] at this
  exact spec_degreeReduceMany hst this

theorem spec_scalarMul [Codec M (List V)] {t : Nat} {st : Fin n → ShamirState n R F}
    (hst : ShCorr t st) (gen : V) {a : Fin n → V} {b : Fin n → F} {x : V} {y : F}
    (ha : IsShamir F t a x) (hb : IsShamir F t b y) :
    Spec (M := M) (fun i => scalarMul gen (a i) (b i)) st
      (fun r st' => IsShamir F t r (y • x) ∧ ShCorr t st') := by
  have := hb.smul_smul ha
  rw [← Nat.two_mul] at this
  exact spec_degreeReducePoint hst gen this

end

end Verif.Shamir
