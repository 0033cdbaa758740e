import Verif.Shamir.ArithLemmas

/-!
# Lemmas: setting up the shared generators
-/

namespace Verif.Shamir

variable {n : Nat} {F V R S M Seed : Type} [Field F] [AddCommGroup V] [Module F V]

/-! ## Distance around the circle -/

/-- How many steps forward from `i` to `j`. -/
def dist (i j : Fin n) : Nat := if i.val ≤ j.val then j.val - i.val else j.val + n - i.val

theorem dist_lt (i j : Fin n) : dist i j < n := by
  have := i.2; have := j.2; rw [dist]; split <;> omega

theorem dist_fwd (i : Fin n) {k : Nat} (hk : k < n) : dist i (fwd i k) = k := by
  have := i.2
  rw [dist, fwd_val _ (by omega)]; split <;> split at * <;> omega

theorem dist_back (j : Fin n) {k : Nat} (hk : k < n) : dist (back j k) j = k := by
  have := j.2
  rw [dist, back_val _ (by omega)]; split <;> split at * <;> omega

theorem fwd_dist (i j : Fin n) : fwd i (dist i j) = j := by
  have := i.2; have := j.2
  ext
  rw [fwd_val _ (dist_lt i j).le, dist]; split <;> split <;> omega

theorem dist_pos {i j : Fin n} (h : i ≠ j) : 0 < dist i j := by
  have := i.2; have := j.2
  have : i.val ≠ j.val := fun e => h (Fin.ext e)
  rw [dist]; split <;> omega

theorem dist_add {i j : Fin n} (h : i ≠ j) : dist i j + dist j i = n := by
  have := i.2; have := j.2
  have : i.val ≠ j.val := fun e => h (Fin.ext e)
  rw [dist, dist]; split <;> split <;> omega

/-- Who sends the seed of a pair: exactly one of the two. -/
theorem send_iff {i j : Fin n} (h : i ≠ j) :
    dist i j ≤ seedsToSend i ↔ dist i j ≤ n - 1 - seedsToSend j := by
  have hi := i.2; have hj := j.2
  have hne : i.val ≠ j.val := fun e => h (Fin.ext e)
  simp only [dist, seedsToSend]
  split <;> split <;> split <;> omega

theorem seedsToSend_lt (i : Fin n) : seedsToSend i + 1 ≤ n := by
  have hi := i.2
  simp only [seedsToSend]
  split <;> omega

/-! ## Loops whose state is known at every step -/

theorem LRun.foldRange {σ ι E : Type} {f : σ → Nat → MPC ι S M E σ} {a : Nat → σ} {i : ι} {s : S}
    {inp out : Nat → List (ι × M)} {N : Nat}
    (h : ∀ k, k < N → LRun (f (a k) k) i s (inp k) (out k) (a (k + 1)) s) :
    LRun ((List.range N).foldlM f (a 0)) i s ((List.range N).flatMap inp)
      ((List.range N).flatMap out) (a N) s := by
  induction N with
  | zero => exact LRun.pure _ _ _
  | succ N ih =>
    rw [List.range_succ, List.foldlM_append, List.flatMap_append, List.flatMap_append]
    refine LRun.bind (ih fun k hk => h k (by omega)) ?_
    have := LRun.bind (k := fun x => Pure.pure x) (h N (by omega)) (LRun.pure _ _ _)
    simpa [List.foldlM_cons] using this

/-! ## Exchanging seeds -/

section

variable [Inhabited Seed] [Sample R Seed] [Seedable R Seed]

/-- The generator after drawing `k` seeds. -/
def seedState (Seed : Type) [Sample R Seed] (r : R) : Nat → R
  | 0 => r
  | k + 1 => (Sample.sample (seedState Seed r k) : Seed × R).2

def seedVal (Seed : Type) [Sample R Seed] (r : R) (k : Nat) : Seed :=
  (Sample.sample (seedState Seed r k) : Seed × R).1

/-- The slots after sending `k` seeds. -/
def slotsSent (r : R) (i : Fin n) (k : Nat) (j : Fin n) : Seed :=
  if 0 < dist i j ∧ dist i j ≤ k then seedVal Seed r (dist i j - 1) else default

/-- The slots after all sends and `k` receives. -/
def slotsRcvd (r : Fin n → R) (i : Fin n) (k : Nat) (j : Fin n) : Seed :=
  if 0 < dist j i ∧ dist j i ≤ k then seedVal Seed (r j) (dist j i - 1)
  else slotsSent (r i) i (seedsToSend i) j

/-- The generators after the exchange. -/
def rngsShared (Seed : Type) [Inhabited Seed] [Sample R Seed] [Seedable R Seed] (r : Fin n → R)
    (i : Fin n) : Fin n → R :=
  Function.update (fun j => Seedable.fromSeed (slotsRcvd (Seed := Seed) r i (n - 1 - seedsToSend i) j)) i
    (seedState Seed (r i) (seedsToSend i))

omit [Seedable R Seed] in
theorem slots_sync (r : Fin n → R) {i j : Fin n} (h : i ≠ j) :
    (slotsRcvd (Seed := Seed) r i (n - 1 - seedsToSend i) j : Seed) =
      slotsRcvd r j (n - 1 - seedsToSend j) i := by
  have h1 := send_iff h
  have h2 := send_iff h.symm
  have h3 := dist_add h
  have h4 := dist_pos h
  have h5 := dist_pos h.symm
  have h6 := seedsToSend_lt i
  have h7 := seedsToSend_lt j
  simp only [slotsRcvd, slotsSent, h4, h5, true_and]
  by_cases hc : dist i j ≤ seedsToSend i
  · have h8 : dist i j ≤ n - 1 - seedsToSend j := h1.mp hc
    have h9 : ¬ dist j i ≤ n - 1 - seedsToSend i := by omega
    simp [h9, h8, hc]
  · have h8 : ¬ dist i j ≤ n - 1 - seedsToSend j := fun h => hc (h1.mpr h)
    have h9 : dist j i ≤ n - 1 - seedsToSend i := by omega
    have h10 := h2.mpr h9
    simp [h9, h8, h10]

theorem rngsShared_sync (r : Fin n → R) {i j : Fin n} (h : i ≠ j) :
    rngsShared Seed r i j = rngsShared Seed r j i := by
  rw [rngsShared, rngsShared, Function.update_of_ne (Ne.symm h), Function.update_of_ne h,
    slots_sync r h]

theorem spec_getSharedRngs [Codec M (List Seed)] (r : Fin n → R) (st : Fin n → S) :
    Spec (M := M) (fun i => getSharedRngs (Seed := Seed) (r i)) st
      (fun v st' => v = rngsShared Seed r ∧ st' = st) := by
  refine Spec.round
    (out := fun i => (List.range (seedsToSend i)).map fun k =>
      (fwd i (k + 1), Codec.enc [seedVal Seed (r i) k]))
    (inp := fun i => (List.range (n - 1 - seedsToSend i)).map fun k =>
      (back i (k + 1), Codec.enc [seedVal Seed (r (back i (k + 1))) k]))
    (q := fun i => (do
      let seeds ← (List.range (n - 1 - seedsToSend i)).foldlM (fun (seeds : Fin n → Seed) off => do
        let sid := back i (off + 1)
        let seed : Seed ← recvFrom sid
        pure (Function.update seeds sid seed)) (slotsSent (r i) i (seedsToSend i))
      pure (Function.update (fun j => Seedable.fromSeed (seeds j)) i (seedState Seed (r i) (seedsToSend i))) :
        MPC (Fin n) S M Err (Fin n → R)) i (st i))
    (v := rngsShared Seed r) (st' := st) ?_ ?_ ?_ ?_ ⟨rfl, rfl⟩
  · intro i
    have hi := seedsToSend_lt i
    have e := LRun.foldRange (M := M) (i := i) (s := st i) (N := seedsToSend i)
      (f := fun (st : (Fin n → Seed) × R) off => (do
        let rcv := fwd i (off + 1)
        let (seed, rng) := (Sample.sample st.2 : Seed × R)
        sendTo rcv seed
        pure (Function.update st.1 rcv seed, rng) : MPC (Fin n) S M Err _))
      (a := fun k => (slotsSent (r i) i k, seedState Seed (r i) k))
      (inp := fun _ => []) (out := fun k => [(fwd i (k + 1), Codec.enc [seedVal Seed (r i) k])])
      (fun k hk => by
        have h1 := LRun.bind (k := fun _ => pure (Function.update (slotsSent (r i) i k)
          (fwd i (k + 1)) (seedVal Seed (r i) k), seedState Seed (r i) (k + 1)))
          (LRun.send (M := M) (E := Err) (fwd i (k + 1)) [seedVal Seed (r i) k] i (st i)) (LRun.pure _ _ _)
        have h2 : slotsSent (r i) i (k + 1) = Function.update (slotsSent (r i) i k)
          (fwd i (k + 1)) (seedVal Seed (r i) k) := by
          funext j
          by_cases hj : j = fwd i (k + 1)
          · subst hj
            simp [slotsSent, dist_fwd i (show k + 1 < n by omega)]
          · have : dist i j ≠ k + 1 := fun e => hj (by rw [← e, fwd_dist])
            rw [Function.update_of_ne hj]
            simp only [slotsSent]
            by_cases hc : 0 < dist i j ∧ dist i j ≤ k
            · rw [if_pos hc, if_pos ⟨hc.1, by omega⟩]
            · rw [if_neg hc, if_neg (by omega)]
        simp only [List.append_nil] at h1
        rw [h2]
        exact h1)
    have e0 : (slotsSent (r i) i 0 : Fin n → Seed) = fun _ => default := by
      funext j; rw [slotsSent, if_neg (by omega)]
    simp only [e0, seedState, flatMap_const_nil] at e
    have e3 := LRun.then (k := fun (x : (Fin n → Seed) × R) => (do
      let seeds ← (List.range (n - 1 - seedsToSend i)).foldlM (fun (seeds : Fin n → Seed) off => do
        let sid := back i (off + 1)
        let seed : Seed ← recvFrom sid
        pure (Function.update seeds sid seed)) x.1
      pure (Function.update (fun j => Seedable.fromSeed (seeds j)) i x.2) :
        MPC (Fin n) S M Err (Fin n → R))) e (LSteps.refl _)
    simp only [List.append_nil] at e3
    rw [List.map_eq_flatMap]
    exact e3
  · intro i
    have hi := seedsToSend_lt i
    have e := LRun.foldRange (M := M) (i := i) (s := st i) (N := n - 1 - seedsToSend i)
      (f := fun (seeds : Fin n → Seed) off => (do
        let sid := back i (off + 1)
        let seed : Seed ← recvFrom sid
        pure (Function.update seeds sid seed) : MPC (Fin n) S M Err _))
      (a := fun k => slotsRcvd r i k)
      (out := fun _ => [])
      (inp := fun k => [(back i (k + 1), Codec.enc [seedVal Seed (r (back i (k + 1))) k])])
      (fun k hk => by
        have h0 : LRun (M := M) (recvFrom (back i (k + 1)) : MPC (Fin n) S M Err Seed) i (st i)
            [(back i (k + 1), Codec.enc [seedVal Seed (r (back i (k + 1))) k])] []
            (seedVal Seed (r (back i (k + 1))) k) (st i) :=
          LRun.bind (LRun.recv (M := M) (back i (k + 1)) [seedVal Seed (r (back i (k + 1))) k] i (st i))
            (LRun.pure _ _ _)
        have h1 := LRun.bind (k := fun seed => pure (Function.update (slotsRcvd r i k)
          (back i (k + 1)) seed)) h0 (LRun.pure _ _ _)
        have h2 : slotsRcvd r i (k + 1) = Function.update (slotsRcvd r i k)
          (back i (k + 1)) (seedVal Seed (r (back i (k + 1))) k) := by
          funext j
          by_cases hj : j = back i (k + 1)
          · subst hj
            simp [slotsRcvd, dist_back i (show k + 1 < n by omega)]
          · have : dist j i ≠ k + 1 := fun e => hj (by
              rw [← e]; exact ((fwd_eq_iff (dist_lt j i).le).mp (fwd_dist j i)).symm)
            rw [Function.update_of_ne hj]
            simp only [slotsRcvd]
            by_cases hc : 0 < dist j i ∧ dist j i ≤ k
            · rw [if_pos hc, if_pos ⟨hc.1, by omega⟩]
            · rw [if_neg hc, if_neg (by omega)]
        rw [← h2] at h1
        exact h1)
    have e0 : (slotsRcvd r i 0 : Fin n → Seed) = slotsSent (r i) i (seedsToSend i) := by
      funext j; rw [slotsRcvd, if_neg (by omega)]
    rw [e0, flatMap_const_nil] at e
    have e3 := LRun.bind (k := fun (seeds : Fin n → Seed) =>
      (pure (Function.update (fun j => Seedable.fromSeed (seeds j)) i
        (seedState Seed (r i) (seedsToSend i))) : MPC (Fin n) S M Err (Fin n → R))) e (LRun.pure _ _ _)
    simp only [List.append_nil] at e3
    rw [List.map_eq_flatMap]
    exact e3
  · intro a b
    have ha := seedsToSend_lt a
    have hb := seedsToSend_lt b
    rw [msgsTo_map_nodup _ _ _ (nodup_map_range fun x y hx hy he => by
        have := fwd_inj (i := a) (by omega) (by omega) he; omega),
      msgsTo_map_nodup _ _ _ (nodup_map_range fun x y hx hy he => by
        have := back_inj (i := b) (by omega) (by omega) he; omega)]
    have key : ∀ (N : Nat), N < n → ∀ p : Nat → Bool,
        (∀ k < N, p k = decide (dist a b = k + 1)) →
        (List.range N).find? p = if 0 < dist a b ∧ dist a b ≤ N then some (dist a b - 1) else none := by
      intro N hN p hp
      by_cases hc : 0 < dist a b ∧ dist a b ≤ N
      · rw [if_pos hc, List.find?_range_eq_some]
        refine ⟨by rw [hp _ (by omega)]; simp; omega, List.mem_range.mpr (by omega), fun m hm => ?_⟩
        rw [hp _ (by omega)]; simp; omega
      · rw [if_neg hc, List.find?_eq_none]
        intro k hk
        rw [hp _ (List.mem_range.mp hk)]
        have := List.mem_range.mp hk
        simp; omega
    rw [key _ (by omega) _ fun k hk => by
        simp only [decide_eq_decide]
        constructor
        · rintro rfl; exact dist_fwd a (by omega)
        · intro e; rw [← e, fwd_dist],
      key _ (by omega) _ fun k hk => by
        simp only [decide_eq_decide]
        constructor
        · rintro rfl; exact dist_back b (by omega)
        · intro e; rw [← e]; exact (fwd_eq_iff (dist_lt a b).le).mp (fwd_dist a b)]
    by_cases hab : a = b
    · subst hab
      have : dist a a = 0 := by simp [dist]
      simp [this]
    · have h1 := send_iff hab
      have h2 := dist_pos hab
      by_cases hc : dist a b ≤ seedsToSend a
      · have h3 := h1.mp hc
        simp only [h2, hc, h3, true_and, if_true]
        have : back b (dist a b - 1 + 1) = a := by
          rw [show dist a b - 1 + 1 = dist a b by omega]
          nth_rewrite 1 [← fwd_dist a b]
          rw [back_fwd _ (dist_lt a b).le]
        rw [this]
      · have h3 : ¬ dist a b ≤ n - 1 - seedsToSend b := fun h => hc (h1.mpr h)
        simp [hc, h3]
  · intro i hc
    simp only [List.map_map, List.mem_map, List.mem_range, Function.comp_apply] at hc
    obtain ⟨k, hk, hc⟩ := hc
    have := seedsToSend_lt i
    exact back_ne (by omega) (by omega) hc

/-! ## The generator and the state -/

theorem points_fwd (hF : PointsDistinct F n) (i : Fin n) {num : Nat} (h : num < n) :
    Points F ((List.range num).map fun k => point (fwd i (k + 1))) :=
  points_of_distinct hF
    (nodup_map_range fun x y hx hy he => by
      have := fwd_inj (i := i) (by omega) (by omega) (point_inj he); omega)
    (by simp only [List.mem_map]; rintro _ ⟨k, -, rfl⟩; exact point_le _)

theorem points_zero_fwd (hF : PointsDistinct F n) (i : Fin n) {num : Nat} (h : num < n) :
    Points F (0 :: (List.range num).map fun k => point (fwd i (k + 1))) :=
  points_of_distinct hF
    (List.nodup_cons.mpr ⟨by simp [point], nodup_map_range fun x y hx hy he => by
      have := fwd_inj (i := i) (by omega) (by omega) (point_inj he); omega⟩)
    (by
      simp only [List.mem_cons, List.mem_map]
      rintro _ (rfl | ⟨k, -, rfl⟩)
      · omega
      · exact point_le _)

theorem spec_newRng [DecidableEq F] [Codec M (List Seed)] {t : Nat} (hF : PointsDistinct F n)
    (hb : 2 * t + 1 ≤ n) (hl : t + 1 < n) (seed : Fin n → Seed) (st : Fin n → S) :
    Spec (M := M) (fun i => (newRng F (seed i) t : MPC (Fin n) S M Err (ShamirRng n R F))) st
      (fun g st' => RngCorr t g ∧ Buffered t g [] ∧ st' = st) := by
  unfold newRng
  refine Spec.bind (spec_getSharedRngs _ st) ?_
  rintro v st' ⟨rfl, rfl⟩
  refine Spec.bind (Spec.netId (Q := fun r s => (r = fun i => i) ∧ s = st') ⟨rfl, rfl⟩) ?_
  rintro v st'' ⟨rfl, rfl⟩
  choose pT hT hT' using fun i : Fin n => precompute_spec (points_fwd hF i hl)
  choose p2T h2T h2T' using fun i : Fin n =>
    precompute_spec (points_zero_fwd hF i (show t * 2 < n by omega))
  simp only [hT, h2T, unwrap]
  refine Spec.bind (Spec.pure (Q := fun r s => (r = pT) ∧ s = st'') ⟨rfl, rfl⟩) ?_
  rintro pT st' ⟨rfl, rfl⟩
  refine Spec.bind (Spec.pure (Q := fun r s => (r = p2T) ∧ s = st') ⟨rfl, rfl⟩) ?_
  rintro p2T st'' ⟨rfl, rfl⟩
  have hbuf : Buffered (R := R) t (fun i : Fin n => {
      id := i, rngs := rngsShared Seed (fun i => Seedable.fromSeed (seed i)) i, threshold := t,
      precompT := pT i, precomp2T := p2T i, matrix := vandermonde n F t, rT := [], r2T := [] }) [] :=
    ⟨fun _ => rfl, fun _ => rfl, fun p hp => by simp at hp⟩
  refine Spec.pure ⟨⟨fun _ => rfl, fun _ => rfl, hb, hl, hF, hT', h2T', fun _ => rfl,
    fun i j h => rngsShared_sync _ h, ⟨[], hbuf⟩⟩, hbuf, rfl⟩

theorem divCeil_mul (a : Nat) {b : Nat} (hb : 0 < b) : a ≤ divCeil a b * b := by
  rw [divCeil]
  have h1 := Nat.div_add_mod (a + b - 1) b
  have h2 := Nat.mod_lt (a + b - 1) hb
  rw [Nat.mul_comm] at h1
  omega

theorem spec_preprocessingNew [DecidableEq F] [Sample R F] [Codec M (List Seed)] [Codec M (List F)]
    {t amount : Nat} (hF : PointsDistinct F n)
    (hb : 2 * t + 1 ≤ n) (hl : t + 1 < n) (seed : Fin n → Seed) (st : Fin n → S) :
    Spec (M := M) (fun i => (preprocessingNew F (seed i) t amount :
        MPC (Fin n) S M Err (ShamirRng n R F))) st
      (fun g st' => RngCorr t g ∧
        (∃ buf, Buffered t g buf ∧ buf.length = divCeil amount (t + 1) * (t + 1)) ∧ st' = st) := by
  unfold preprocessingNew
  simp only [show ¬ 2 * t + 1 > n by omega, if_false]
  refine Spec.bind (spec_newRng hF hb hl seed st) ?_
  rintro g st' ⟨hg, hbuf, rfl⟩
  have hs : ∀ i, (g i).sizePerBatch = t + 1 := fun i => by
    simp [ShamirRng.sizePerBatch, hg.matrix, vandermonde_length]
  simp only [hs]
  refine Spec.mono (spec_bufferTriples (a := divCeil amount (t + 1)) hg st') ?_
  rintro r st'' ⟨rfl, rfl⟩
  exact ⟨hg.after, ⟨_, hbuf.after hg, by simp [freshPairs_length]⟩, rfl⟩

end

theorem ofPreprocessing_spec [DecidableEq F] {t : Nat} {g : Fin n → ShamirRng n R F}
    (h : RngCorr t g) : ∃ st : Fin n → ShamirState n R F,
      (∀ i, ShamirState.ofPreprocessing (g i) = some (st i)) ∧ ShCorr t st ∧
      ∀ i, (st i).rng = g i := by
  have hb := h.bound
  have hl := h.live
  have hz : ∀ j ∈ (List.range (n - (n - t))).map (n - t + 1 + ·), ((j : Nat) : F) ≠ 0 := by
    simp only [List.mem_map, List.mem_range]
    rintro _ ⟨k, hk, rfl⟩ he
    have := h.field (n - t + 1 + k) 0 (by omega) (by omega) (by simpa using he)
    omega
  obtain ⟨z, hz1, hz2, hz3, hz4⟩ := zeroPoly_spec (F := F) hz
  have hm : Points F ((List.range (2 * t + 1)).map (· + 1)) :=
    points_of_distinct h.field (nodup_map_range fun x y _ _ he => by omega)
      (by simp only [List.mem_map, List.mem_range]; rintro _ ⟨k, hk, rfl⟩; omega)
  refine ⟨fun i => {
      rng := g i,
      openLagrangeT := (openPoints i (t + 1)).map (lag F (openPoints i (t + 1))),
      openLagrange2T := (openPoints i (2 * t + 1)).map (lag F (openPoints i (2 * t + 1))),
      mulLagrange2T := ((List.range (2 * t + 1)).map (· + 1)).map
        (lag F ((List.range (2 * t + 1)).map (· + 1))),
      mulReconstructWithZeros := z, generationAmount := 1024 }, fun i => ?_,
    ⟨h, fun _ => rfl, fun _ => rfl, fun _ => rfl, fun i => ⟨?_, hz3, fun j hj => ?_⟩,
      ⟨1024, by omega, fun _ => rfl⟩⟩, fun _ => rfl⟩
  · simp only [ShamirState.ofPreprocessing, h.thr, h.id,
      lagrangeFromCoeff_eq (points_openPoints h.field i (show t + 1 ≤ n by omega)),
      lagrangeFromCoeff_eq (points_openPoints h.field i hb), lagrangeFromCoeff_eq hm, hz1]
    rfl
  · simp only [hz2, List.length_map, List.length_range]; omega
  · refine hz4 _ (List.mem_map.mpr ⟨j.val - (n - t), List.mem_range.mpr (by omega), ?_⟩)
    simp only [point]; omega

end Verif.Shamir
