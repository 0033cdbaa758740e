import Verif.Shamir.Arith
import Verif.Shamir.ShamirLemmas
import Verif.Net.Local

/-!
# Lemmas: party arithmetic, the state invariant, opening
-/

namespace Verif.Shamir

variable {n : Nat} {F V R S M : Type} [Field F] [AddCommGroup V] [Module F V]

/-! ## Walking around the circle of parties -/

theorem fwd_val (i : Fin n) {k : Nat} (hk : k ≤ n) :
    (fwd i k).val = if i.val + k < n then i.val + k else i.val + k - n := by
  have := i.2
  simp only [fwd]
  split
  · next h => exact Nat.mod_eq_of_lt h
  · next h => rw [Nat.mod_eq_sub_mod (by omega), Nat.mod_eq_of_lt (by omega)]

theorem back_val (i : Fin n) {k : Nat} (hk : k ≤ n) :
    (back i k).val = if k ≤ i.val then i.val - k else i.val + n - k := by
  have := i.2
  simp only [back]
  split
  · next h => rw [Nat.mod_eq_sub_mod (by omega), Nat.mod_eq_of_lt (by omega)]; omega
  · next h => exact Nat.mod_eq_of_lt (by omega)

theorem fwd_back (i : Fin n) {k : Nat} (hk : k ≤ n) : fwd (back i k) k = i := by
  have := i.2
  ext
  rw [fwd_val _ hk, back_val _ hk]
  split <;> split <;> omega

theorem back_fwd (i : Fin n) {k : Nat} (hk : k ≤ n) : back (fwd i k) k = i := by
  have := i.2
  ext
  rw [back_val _ hk, fwd_val _ hk]
  split <;> split <;> omega

theorem fwd_eq_iff {a b : Fin n} {k : Nat} (hk : k ≤ n) : fwd a k = b ↔ back b k = a :=
  ⟨fun h => by rw [← h, back_fwd _ hk], fun h => by rw [← h, fwd_back _ hk]⟩

theorem fwd_inj {i : Fin n} {k l : Nat} (hk : k < n) (hl : l < n) (h : fwd i k = fwd i l) :
    k = l := by
  have := congrArg Fin.val h
  rw [fwd_val _ (by omega), fwd_val _ (by omega)] at this
  split at this <;> split at this <;> omega

theorem back_inj {i : Fin n} {k l : Nat} (hk : k < n) (hl : l < n) (h : back i k = back i l) :
    k = l := by
  have := congrArg Fin.val h
  have := i.2
  rw [back_val _ (by omega), back_val _ (by omega)] at *
  split at * <;> split at * <;> omega

theorem fwd_ne {i : Fin n} {k : Nat} (h0 : 0 < k) (hk : k < n) : fwd i k ≠ i := by
  intro h
  have h1 : fwd i 0 = i := by
    ext; rw [fwd_val _ (by omega)]; simp [i.2]
  have := fwd_inj (i := i) hk (by omega) (h.trans h1.symm)
  omega

@[simp] theorem back_zero (i : Fin n) : back i 0 = i := by
  ext; rw [back_val _ (by omega)]; simp

theorem back_ne {i : Fin n} {k : Nat} (h0 : 0 < k) (hk : k < n) : back i k ≠ i := by
  intro h
  have := back_inj (i := i) hk (by omega) (h.trans (back_zero i).symm)
  omega

theorem point_inj {i j : Fin n} (h : point i = point j) : i = j := by
  ext; simpa [point] using h

theorem point_le (i : Fin n) : point i ≤ n := i.2

theorem nodup_map_range {α : Type} {f : Nat → α} {k : Nat}
    (h : ∀ a b, a < k → b < k → f a = f b → a = b) : ((List.range k).map f).Nodup :=
  (List.nodup_map_iff_inj_on List.nodup_range).mpr fun a ha b hb he =>
    h a b (List.mem_range.mp ha) (List.mem_range.mp hb) he

theorem nodup_openPoints (i : Fin n) {num : Nat} (h : num ≤ n) : (openPoints i num).Nodup :=
  nodup_map_range fun a b ha hb he => back_inj (by omega) (by omega) (point_inj he)

theorem points_openPoints (hF : PointsDistinct F n) (i : Fin n) {num : Nat} (h : num ≤ n) :
    Points F (openPoints i num) :=
  points_of_distinct hF (nodup_openPoints i h) (by
    intro k hk
    obtain ⟨j, _, rfl⟩ := List.mem_map.mp hk
    exact point_le _)

/-! ## The state invariant -/

/-- The parties' buffers hold the double sharings `buf`, in this order. -/
structure Buffered (t : Nat) (g : Fin n → ShamirRng n R F) (buf : List (Fin n → F × F)) : Prop where
  rT : ∀ i, (g i).rT = buf.map fun p => (p i).1
  r2T : ∀ i, (g i).r2T = buf.map fun p => (p i).2
  pairs : ∀ p ∈ buf, IsPair t p

/-- What holds of the states of all parties between protocol calls: same threshold `t`, tables for
interpolation and opening, pairwise equal shared generators, and buffered pairs that are sharings of
the same values, once of degree `t` and once of degree `2t`. -/
structure RngCorr (t : Nat) (g : Fin n → ShamirRng n R F) : Prop where
  id : ∀ i, (g i).id = i
  thr : ∀ i, (g i).threshold = t
  bound : 2 * t + 1 ≤ n
  live : t + 1 < n
  field : PointsDistinct F n
  interpT : ∀ i, IsInterp F ((List.range (t + 1)).map fun k => point (fwd i (k + 1))) (g i).precompT
  interp2T : ∀ i, IsInterp F (0 :: (List.range (t * 2)).map fun k => point (fwd i (k + 1)))
    (g i).precomp2T
  matrix : ∀ i, (g i).matrix = vandermonde n F t
  sync : ∀ i j, i ≠ j → (g i).rngs j = (g j).rngs i
  pairs : ∃ buf, Buffered t g buf

structure ShCorr (t : Nat) (st : Fin n → ShamirState n R F) : Prop where
  rng : RngCorr t (fun i => (st i).rng)
  lagT : ∀ i, (st i).openLagrangeT = (openPoints i (t + 1)).map (lag F (openPoints i (t + 1)))
  lag2T : ∀ i, (st i).openLagrange2T =
    (openPoints i (2 * t + 1)).map (lag F (openPoints i (2 * t + 1)))
  mulLag : ∀ i, (st i).mulLagrange2T = ((List.range (2 * t + 1)).map (· + 1)).map
    (lag F ((List.range (2 * t + 1)).map (· + 1)))
  zeros : ∀ i, (st i).mulReconstructWithZeros.length = t + 1 ∧
    horner (st i).mulReconstructWithZeros (0 : F) = 1 ∧
    ∀ j : Fin n, n - t ≤ j.val → horner (st i).mulReconstructWithZeros ((point j : Nat) : F) = 0
  gen : ∃ k, 0 < k ∧ ∀ i, (st i).generationAmount = k

/-! ## Broadcast to the next parties -/

theorem runs_broadcastNext {α : Type} [Codec M α] {st : Fin n → S} {num : Nat} (h1 : 1 ≤ num)
    (hn : num ≤ n) (d : Fin n → α) :
    Runs (M := M) (fun i => (broadcastNext num (d i) : MPC (Fin n) S M Err (List α)) i (st i))
      (fun i => .ok ((List.range num).map (fun k => d (back i k)), st i))
      (fun i => (List.range (num - 1)).map fun r =>
        (back i (r + 1), Codec.enc (d (back i (r + 1))))) := by
  refine Runs.round (out := fun i => (List.range (num - 1)).map fun s =>
      (fwd i (s + 1), Codec.enc (d i)))
    (inp := fun i => (List.range (num - 1)).map fun r =>
      (back i (r + 1), Codec.enc (d (back i (r + 1)))))
    (q := fun i => ((do
      let rest ← (List.range (num - 1)).mapM fun r =>
        (MPC.recv (back i (r + 1)) : MPC (Fin n) S M Err α)
      pure (d i :: rest) : MPC (Fin n) S M Err (List α)) i (st i)))
    (v := fun i => (List.range num).map fun k => d (back i k)) (st' := st) ?_ ?_ ?_ ?_
  · intro i
    unfold broadcastNext
    have h2 := LRun.forM (M := M) (E := Err) (i := i) (s := st i) (l := List.range (num - 1))
      (f := fun s => MPC.send (fwd i (s + 1)) (d i)) (inp := fun _ => [])
      (out := fun s => [(fwd i (s + 1), Codec.enc (d i))])
      (fun s _ => LRun.send _ _ _ _)
    have h3 := LRun.then (M := M) (E := Err) (LRun.netId i (st i))
      (k := fun id => do
        (List.range (num - 1)).forM fun s => MPC.send (fwd id (s + 1)) (d i)
        let rest ← (List.range (num - 1)).mapM fun r =>
          (MPC.recv (back id (r + 1)) : MPC (Fin n) S M Err α)
        pure (d i :: rest)) (LRun.then h2 (LSteps.refl _))
    simpa [List.map_eq_flatMap] using h3
  · intro i
    have h2 := LRun.mapM (M := M) (E := Err) (i := i) (s := st i) (l := List.range (num - 1))
      (f := fun r => (MPC.recv (back i (r + 1)) : MPC (Fin n) S M Err α))
      (g := fun r => d (back i (r + 1)))
      (inp := fun r => [(back i (r + 1), Codec.enc (d (back i (r + 1))))]) (out := fun _ => [])
      (fun r _ => LRun.recv _ _ _ _)
    have h3 := LRun.bind (k := fun rest => pure (d i :: rest)) h2 (LRun.pure _ i (st i))
    have h4 : (List.range num).map (fun k => d (back i k)) =
        d i :: (List.range (num - 1)).map (fun r => d (back i (r + 1))) := by
      obtain ⟨m, rfl⟩ : ∃ m, num = m + 1 := ⟨num - 1, by omega⟩
      rw [List.range_succ_eq_map]
      simp [Function.comp_def]
    rw [h4]
    simpa [List.map_eq_flatMap, LRun] using h3
  · intro a b
    have hl : ∀ k ∈ List.range (num - 1), k + 1 < n := fun k hk => by
      have := List.mem_range.mp hk; omega
    rw [msgsTo_map_nodup _ _ _ (nodup_map_range fun x y hx hy he => by
        have := fwd_inj (i := a) (by omega) (by omega) he; omega),
      msgsTo_map_nodup _ _ _ (nodup_map_range fun x y hx hy he => by
        have := back_inj (i := b) (by omega) (by omega) he; omega)]
    have hp : ∀ k ∈ List.range (num - 1),
        decide (fwd a (k + 1) = b) = decide (back b (k + 1) = a) := fun k hk => by
      have := hl k hk
      simp only [decide_eq_decide]
      exact fwd_eq_iff (by omega)
    rw [List.find?_congr hp]
    cases hf : (List.range (num - 1)).find? (fun k => decide (back b (k + 1) = a)) with
    | none => rfl
    | some k =>
      have h2 := List.find?_some hf
      simp only [decide_eq_true_eq] at h2
      simp [h2]
  · intro i hi
    simp only [List.map_map, List.mem_map, List.mem_range, Function.comp_apply] at hi
    obtain ⟨k, hk, he⟩ := hi
    exact back_ne (by omega) (by omega) he

theorem spec_broadcastNext {α : Type} [Codec M α] {st : Fin n → S} {num : Nat} (h1 : 1 ≤ num)
    (hn : num ≤ n) (d : Fin n → α) :
    Spec (M := M) (fun i => broadcastNext num (d i)) st
      (fun r st' => (r = fun i => (List.range num).map fun k => d (back i k)) ∧ st' = st) :=
  ⟨_, _, runs_broadcastNext h1 hn d, rfl, rfl⟩

theorem polyAt_openPoints {s : Fin n → V} {d : Nat} {c : Nat → V}
    (hs : ∀ i, s i = polyAt d c ((i.val + 1 : Nat) : F)) (i : Fin n) (num : Nat) :
    (List.range num).map (fun k => s (back i k)) =
      (openPoints i num).map fun p : Nat => polyAt d c (p : F) := by
  rw [openPoints, List.map_map]
  exact List.map_congr_left fun k _ => hs _

/-- Reconstruction at party `i` from the shares of the preceding parties. -/
theorem reconstruct_open (hF : PointsDistinct F n) {s : Fin n → V} {v : V} {d num : Nat}
    (h : IsShamir F d s v) (hd : d < num) (hn : num ≤ n) (i : Fin n) :
    reconstruct ((List.range num).map fun k => s (back i k))
      ((openPoints i num).map (lag F (openPoints i num))) = v := by
  obtain ⟨c, rfl, hc⟩ := h
  rw [polyAt_openPoints hc i num]
  exact reconstruct_poly (points_openPoints hF i hn) (by simpa [openPoints] using hd) c

theorem spec_get_bind {α : Type} {k : Fin n → S → MPC (Fin n) S M Err α} {st : Fin n → S}
    {Q : (Fin n → α) → (Fin n → S) → Prop}
    (h : Spec (fun i => k i (st i)) st Q) : Spec (fun i => MPC.get >>= k i) st Q :=
  Spec.bind (Q₁ := fun v st' => v = st ∧ st' = st) (Spec.get ⟨rfl, rfl⟩) (by
    rintro v st' ⟨rfl, rfl⟩; exact h)

theorem spec_openShare [Codec M V] {t : Nat} {st : Fin n → ShamirState n R F} (hst : ShCorr t st)
    {s : Fin n → V} {v : V} (h : IsShamir F t s v) :
    Spec (M := M) (fun i => openShare (s i)) st (fun r st' => (r = fun _ => v) ∧ st' = st) := by
  unfold openShare
  refine spec_get_bind ?_
  simp only [hst.rng.thr]
  have := hst.rng.bound
  refine Spec.bind (spec_broadcastNext (by omega) (by omega) s) ?_
  rintro r st' ⟨rfl, rfl⟩
  refine Spec.pure ⟨?_, rfl⟩
  funext i
  rw [hst.lagT]
  exact reconstruct_open hst.rng.field h (by omega) (by omega) i

theorem spec_openHalf [Codec M V] {t : Nat} {st : Fin n → ShamirState n R F} (hst : ShCorr t st)
    {s : Fin n → V} {v : V} (h : IsShamir F (2 * t) s v) :
    Spec (M := M) (fun i => openHalf (s i)) st (fun r st' => (r = fun _ => v) ∧ st' = st) := by
  unfold openHalf
  refine spec_get_bind ?_
  simp only [hst.rng.thr]
  have := hst.rng.bound
  refine Spec.bind (spec_broadcastNext (by omega) (by omega) s) ?_
  rintro r st' ⟨rfl, rfl⟩
  refine Spec.pure ⟨?_, rfl⟩
  funext i
  rw [hst.lag2T]
  exact reconstruct_open hst.rng.field h (by omega) (by omega) i

/-- What the parties receive when the product of two sharings is opened. -/
theorem runs_openHalf [Codec M V] {t : Nat} {st : Fin n → ShamirState n R F} (hst : ShCorr t st)
    (s : Fin n → V) : ∃ r,
    Runs (M := M) (fun i => (openHalf (s i) : ShamirM n R F M V) i (st i)) r
      (fun i => (List.range (2 * t)).map fun r =>
        (back i (r + 1), Codec.enc (s (back i (r + 1))))) := by
  have := hst.rng.bound
  have h := Runs.bind_ok (k := fun i x => Prog.ret (E := Err)
      (reconstruct x.1 (st i).openLagrange2T, x.2))
    (runs_broadcastNext (M := M) (st := st) (num := 2 * t + 1) (by omega) (by omega) s)
    (runs_ret _)
  have e : (fun i => (openHalf (s i) : ShamirM n R F M V) i (st i)) = fun i =>
      ((broadcastNext (2 * t + 1) (s i) : ShamirM n R F M (List V)) i (st i)).bind
        fun x => Prog.ret (reconstruct x.1 (st i).openLagrange2T, x.2) := by
    funext i
    have e1 : (st i).rng.threshold = t := hst.rng.thr i
    rw [← e1]
    rfl
  simp only [Nat.add_sub_cancel, List.append_nil] at h
  exact ⟨_, by rw [e]; exact h⟩

theorem runs_openShare [Codec M V] {t : Nat} {st : Fin n → ShamirState n R F} (hst : ShCorr t st)
    (s : Fin n → V) : ∃ r,
    Runs (M := M) (fun i => (openShare (s i) : ShamirM n R F M V) i (st i)) r
      (fun i => (List.range t).map fun r =>
        (back i (r + 1), Codec.enc (s (back i (r + 1))))) := by
  have := hst.rng.bound
  have h := Runs.bind_ok (k := fun i x => Prog.ret (E := Err)
      (reconstruct x.1 (st i).openLagrangeT, x.2))
    (runs_broadcastNext (M := M) (st := st) (num := t + 1) (by omega) (by omega) s)
    (runs_ret _)
  have e : (fun i => (openShare (s i) : ShamirM n R F M V) i (st i)) = fun i =>
      ((broadcastNext (t + 1) (s i) : ShamirM n R F M (List V)) i (st i)).bind
        fun x => Prog.ret (reconstruct x.1 (st i).openLagrangeT, x.2) := by
    funext i
    have e1 : (st i).rng.threshold = t := hst.rng.thr i
    rw [← e1]
    rfl
  simp only [Nat.add_sub_cancel, List.append_nil] at h
  exact ⟨_, by rw [e]; exact h⟩

/-- The transposed table of received vectors. -/
theorem transpose_cols {s : Fin n → List V} {vs : List V} {d : Nat} (h : IsShamirs F d s vs)
    {num : Nat} (i : Fin n) :
    ∃ l : List (Fin n → V), List.Forall₂ (IsShamir F d) l vs ∧
      ∀ len, len = vs.length →
      (transpose len ((List.range num).map fun k => s (back i k)) : MPC (Fin n) S M Err _) =
        pure (l.map fun x => (List.range num).map fun k => x (back i k)) := by
  obtain ⟨l, rfl, hl⟩ := h
  refine ⟨l, hl, ?_⟩
  rintro len rfl
  have hlen : vs.length = l.length := hl.length_eq.symm
  rw [transpose, if_neg]
  · congr 1
    apply List.ext_getElem
    · simp [hlen]
    · intro m hm1 hm2
      simp only [List.length_map] at hm2
      simp only [List.getElem_map, List.getElem_range, List.map_map]
      apply List.map_congr_left
      intro k _
      simp [hm2]
  · simp [hlen]

theorem spec_openRows {t : Nat} (hF : PointsDistinct F n) {s : Fin n → List V} {vs : List V}
    {d num : Nat} (h : IsShamirs F d s vs) (hd : d < num) (hn : num ≤ n) (i : Fin n) :
    ∃ rows : List (List V), (∀ len, len = vs.length →
      (transpose len ((List.range num).map fun k => s (back i k)) : MPC (Fin n) S M Err _) =
        pure rows) ∧
      rows.map (reconstruct · ((openPoints i num).map (lag F (openPoints i num)))) = vs := by
  obtain ⟨l, hl, ht⟩ := transpose_cols (M := M) (S := S) (num := num) h i
  refine ⟨_, ht, ?_⟩
  rw [List.map_map]
  apply List.ext_getElem
  · simp [hl.length_eq]
  · intro m hm1 hm2
    have := (List.forall₂_iff_get.mp hl).2 m (by simpa using hm1) hm2
    simp only [List.getElem_map, Function.comp_apply]
    exact reconstruct_open hF this hd hn i

theorem spec_openVecWith [Codec M (List V)] {st : Fin n → S}
    (hF : PointsDistinct F n) {s : Fin n → List V} {vs : List V} {d num : Nat}
    (h : IsShamirs F d s vs) (hd : d < num) (hn : num ≤ n) {len : Fin n → Nat}
    (hlen : ∀ i, len i = vs.length) {lg : Fin n → List F}
    (hlg : ∀ i, lg i = (openPoints i num).map (lag F (openPoints i num))) :
    Spec (M := M) (fun i => do
      let rcv ← broadcastNext num (s i)
      let rows ← transpose (len i) rcv
      pure (rows.map (reconstruct · (lg i)))) st (fun r st' => (r = fun _ => vs) ∧ st' = st) := by
  refine Spec.bind (spec_broadcastNext (by omega) hn s) ?_
  rintro r st' ⟨rfl, rfl⟩
  choose rows h1 h2 using fun i => spec_openRows (t := 0) (M := M) (S := S) hF h hd hn i
  simp only [h1 _ _ (hlen _), pure_bind, hlg]
  exact Spec.pure ⟨funext h2, rfl⟩

theorem _root_.Verif.IsShamirs.length {d : Nat} {s : Fin n → List V} {vs : List V}
    (h : IsShamirs F d s vs) (i : Fin n) : (s i).length = vs.length := Cols.length h i

theorem spec_openVec [Codec M (List V)] {t : Nat} {st : Fin n → ShamirState n R F}
    (hst : ShCorr t st) {s : Fin n → List V} {vs : List V} (h : IsShamirs F t s vs) :
    Spec (M := M) (fun i => openVec (s i)) st (fun r st' => (r = fun _ => vs) ∧ st' = st) := by
  unfold openVec
  refine spec_get_bind ?_
  simp only [hst.rng.thr]
  have := hst.rng.bound
  exact spec_openVecWith hst.rng.field h (by omega) (by omega) (fun i => h.length i) hst.lagT

theorem spec_mulOpen [Codec M F] {t : Nat} {st : Fin n → ShamirState n R F} (hst : ShCorr t st)
    {a b : Fin n → F} {x y : F} (ha : IsShamir F t a x) (hb : IsShamir F t b y) :
    Spec (M := M) (fun i => mulOpen (a i) (b i)) st
      (fun r st' => (r = fun _ => x * y) ∧ st' = st) := by
  unfold mulOpen
  refine spec_openHalf hst ?_
  have := ha.mul hb
  rwa [← Nat.two_mul] at this

theorem isShamirs_mul {t e : Nat} {a b : Fin n → List F} {xs ys : List F}
    (ha : IsShamirs F t a xs) (hb : IsShamirs F e b ys) :
    IsShamirs F (t + e) (fun i => List.zipWith (· * ·) (a i) (b i)) (List.zipWith (· * ·) xs ys) :=
  Cols.zipWith ha hb fun _ _ _ _ hx hy => hx.mul hy

theorem spec_mulOpenVec [Codec M (List F)] {t : Nat} {st : Fin n → ShamirState n R F}
    (hst : ShCorr t st) {a b : Fin n → List F} {xs ys : List F} (ha : IsShamirs F t a xs)
    (hb : IsShamirs F t b ys) (hl : xs.length = ys.length) :
    Spec (M := M) (fun i => mulOpenVec (a i) (b i)) st
      (fun r st' => (r = fun _ => List.zipWith (· * ·) xs ys) ∧ st' = st) := by
  unfold mulOpenVec
  refine spec_get_bind ?_
  simp only [hst.rng.thr]
  have := hst.rng.bound
  have hm := isShamirs_mul ha hb
  exact spec_openVecWith hst.rng.field hm (by omega) (by omega)
    (fun i => by rw [ha.length i]; simp [hl]) hst.lag2T

end Verif.Shamir
