import Verif.Gadgets.MerklePlain
import Verif.Gadgets.Poseidon2ShamirLemmas
import Mathlib.Algebra.Order.Ring.GeomSum

/-!
# Merkle trees on shares
-/

namespace Verif.Merkle

open Poseidon2 PartyID

variable {ι F S M σ π : Type} [CommRing F]

theorem Cols.pad {P : (ι → S) → F → Prop} {z : S} (hz : P (fun _ => z) 0) {x : ι → List S} {vs : List F}
    (h : Cols P x vs) (t : Nat) {A : Nat} (hA : 0 < A) :
    Cols P (fun i => pad z t A (x i)) (Merkle.pad 0 t A vs) := by
  have h1 := Cols.map (Q := Cols P) (f := fun _ c => c ++ List.replicate (t - c.length) z)
    (g := fun c => c ++ List.replicate (t - c.length) (0 : F)) (Poseidon2.Cols.chunksExact h hA) (by
      intro y ws hy
      have := Cols.append hy (Cols.replicate (P := P) (t - ws.length) hz)
      simpa only [hy.length] using this)
  have := Poseidon2.Cols.flatten h1
  simpa only [Merkle.pad, List.flatMap_def] using this

theorem heads_eq_stepBy (z : S) {t m : Nat} (ht : 0 < t) {r : List S} (h : r.length = t * m) (rest : List S) :
    heads z t m (r ++ rest) = stepBy t r := by
  obtain ⟨ls, h1, h2, rfl⟩ := exists_chunks h
  rw [← h1, heads_flatten z ht h2, stepBy_flatten ht h2]
  clear h h1
  induction ls with
  | nil => rfl
  | cons c ls ih =>
    have hc := h2 c (by simp)
    cases c with
    | nil => simp at hc; omega
    | cons a c =>
      simp only [List.map_cons, List.flatMap_cons, List.headD_cons, List.take_succ_cons, List.take_zero,
        List.singleton_append, List.cons.injEq, true_and]
      exact ih fun c hc => h2 c (by simp [hc])

theorem feedForward_spec [Add S] (z : S) {t m : Nat} {ff input : List S} (h1 : t * m ≤ ff.length) (ht : 0 < t)
    (h2 : t * m ≤ input.length) :
    ∃ l', feedForward t m ff input = some l' ∧ l'.length = input.length ∧
      heads z t m l' = List.zipWith (· + ·) (heads z t m input) (heads z t m ff) := by
  have hlt : ∀ k < m, t * k < t * m := fun k hk => Nat.mul_lt_mul_of_pos_left hk ht
  obtain ⟨s, g1, g2, g3, -⟩ : ∃ s, feedForward t m ff input = some s ∧ (s.length = input.length ∧
      (∀ j < m, s[t * j]? = some (input.getD (t * j) z + ff.getD (t * j) z)) ∧
      ∀ j, m ≤ j → s[t * j]? = input[t * j]?) := by
    refine foldlM_range (fun i (s : List S) => s.length = input.length ∧
      (∀ j < i, s[t * j]? = some (input.getD (t * j) z + ff.getD (t * j) z)) ∧
      ∀ j, i ≤ j → s[t * j]? = input[t * j]?) ?_ ⟨rfl, by simp, fun _ _ => rfl⟩
    rintro k hk s ⟨hs1, hs2, hs3⟩
    have hk' := hlt k hk
    refine ⟨s.set (t * k) (input.getD (t * k) z + ff.getD (t * k) z), ?_, by simpa using hs1, ?_, ?_⟩
    · rw [hs3 k (le_refl _), List.getElem?_eq_getElem (by omega), List.getElem?_eq_getElem (by omega)]
      simp only [List.getD_eq_getElem?_getD]
      rw [List.getElem?_eq_getElem (by omega), List.getElem?_eq_getElem (by omega)]
      rfl
    · intro j hj
      rw [List.getElem?_set]
      by_cases e : k = j
      · subst e
        rw [if_pos rfl, if_pos (by omega)]
      · rw [if_neg (fun h => e (Nat.eq_of_mul_eq_mul_left ht h)), hs2 j (by omega)]
    · intro j hj
      rw [List.getElem?_set, if_neg (fun h => by
        have := Nat.eq_of_mul_eq_mul_left ht h; omega), hs3 j (by omega)]
  refine ⟨s, g1, g2, ?_⟩
  apply List.ext_getElem
  · simp [heads]
  · intro k hk1 hk2
    have hk : k < m := by simpa [heads] using hk1
    simp only [heads, List.getElem_map, List.getElem_range, List.getElem_zipWith]
    rw [List.getD_eq_getElem?_getD, g3 k hk]
    rfl

variable [DecidableEq ι] {P : (ι → S) → F → Prop} {z : S} {Pre : Nat → (ι → π) → Prop} {I : (ι → σ) → Prop}
  {p : Params F} {A c N : Nat}

/-- What the packed permutation does. -/
def PackedSpec (p : Params F) (P : (ι → S) → F → Prop) (Pre : Nat → (ι → π) → Prop) (I : (ι → σ) → Prop)
    (c N : Nat) (perm : List S → π → MPC ι σ M Err (List S × π)) : Prop :=
  ∀ (off : Nat) (x : ι → List S) (v : List (List F)) (pre : ι → π) (st : ι → σ), Cols P x v.flatten →
    (∀ u ∈ v, u.length = p.t) → Pre off pre → off + c * v.length ≤ N → I st →
    Spec (fun i => perm (x i) (pre i)) st (fun s st' =>
      Cols P (fun i => (s i).1) (v.map (poseidon2 p)).flatten ∧ Pre (off + c * v.length) (fun i => (s i).2) ∧ I st')

/-- What one layer of hashes does. -/
def LayerSpec (t A : Nat) (z : S) (H : List F → F) (P : (ι → S) → F → Prop) (Pre : Nat → (ι → π) → Prop)
    (I : (ι → σ) → Prop) (c N : Nat) (hash : Nat → List S × π → MPC ι σ M Err (List S × π)) : Prop :=
  ∀ (d off : Nat) (l : ι → List S) (vs : List F) (s : ι → List S × π) (st : ι → σ), off + c * A ^ d ≤ N →
    Cols P l vs → vs.length = A ^ (d + 1) → (∀ i, Layout z t A (d + 1) (l i) (s i).1) →
    Pre off (fun i => (s i).2) → I st →
    Spec (fun i => hash (A ^ d) (s i)) st (fun s' st' =>
      (∃ out, Cols P out (layer H A vs) ∧ ∀ i, heads z t (A ^ d) (s' i).1 = out i ∧
        t * A ^ d ≤ (s' i).1.length) ∧ Pre (off + c * A ^ d) (fun i => (s' i).2) ∧ I st')

theorem spec_spongeLayer' {perm : List S → π → MPC ι σ M Err (List S × π)} (hp : p.WF) (hz : P (fun _ => z) 0)
    (hA : 0 < A) (hAt : A ≤ p.t) (hperm : PackedSpec p P Pre I c N perm) {d off : Nat} {l : ι → List S}
    {vs : List F} {s : ι → List S × π} {st : ι → σ} (hoff : off + c * A ^ d ≤ N) (hl : Cols P l vs)
    (hv : vs.length = A ^ (d + 1)) (hs : ∀ i, Layout z p.t A (d + 1) (l i) (s i).1)
    (hpre : Pre off (fun i => (s i).2)) (hst : I st) :
    Spec (fun i => spongeLayer perm p.t (A ^ d) (s i)) st (fun s' st' =>
      (∃ out, Cols P out (layer (spongeHash p) A vs) ∧ ∀ i, heads z p.t (A ^ d) (s' i).1 = out i ∧
        (s' i).1.length = (s i).1.length) ∧ Pre (off + c * A ^ d) (fun i => (s' i).2) ∧ I st') := by
  have ht := t_pos hp
  obtain ⟨ls, h1, h2, rfl⟩ := exists_chunks (A := A) (m := A ^ d) (l := vs) (by rw [hv, pow_succ'])
  have hpl : ∀ u ∈ ls.map (padOne (0 : F) p.t), u.length = p.t := by
    intro u hu
    obtain ⟨c, hc, rfl⟩ := List.mem_map.mp hu
    exact length_padOne 0 (by rw [h2 c hc]; exact hAt)
  have hx := Cols.pad hz hl p.t hA
  rw [pad_flatten 0 p.t hA h2] at hx
  have hle : ∀ i, p.t * A ^ d ≤ (s i).1.length := fun i => (hs i).1
  have htake : ∀ i, (s i).1.take (p.t * A ^ d) = pad z p.t A (l i) := fun i => (hs i).2
  simp only [spongeLayer, hle, if_true, htake]
  have hm : (ls.map (padOne (0 : F) p.t)).length = A ^ d := by rw [List.length_map, h1]
  refine Spec.bind (hperm off _ _ _ st hx hpl hpre (by rw [hm]; exact hoff) hst) ?_
  rintro r st' ⟨hr, hpre', hst'⟩
  rw [hm] at hpre'
  refine Spec.pure ⟨⟨fun i => stepBy p.t (r i).1, ?_, fun i => ?_⟩, hpre', hst'⟩
  · have h3 := Poseidon2.Cols.stepBy hr p.t
    have hpl' : ∀ u ∈ (ls.map (padOne (0 : F) p.t)).map (poseidon2 p), u.length = p.t := by
      intro u hu
      obtain ⟨c, hc, rfl⟩ := List.mem_map.mp hu
      exact length_poseidon2 hp (hpl c hc)
    rw [stepBy_flatten ht hpl'] at h3
    rw [layer_flatten hA h2]
    convert h3 using 1
    rw [List.map_map, List.flatMap_map]
    clear hl hx hr h3 hpl' hpl hm h1 hv
    induction ls with
    | nil => rfl
    | cons c ls ih =>
      have hc : (padOne (0 : F) p.t c).length = p.t := length_padOne 0 (by rw [h2 c (by simp)]; exact hAt)
      have hc2 := length_poseidon2 hp hc
      have e : spongeHash p c = (poseidon2 p (padOne 0 p.t c)).headD 0 := rfl
      rw [List.map_cons, List.flatMap_cons, ih (fun c hc => h2 c (by simp [hc])), e]
      cases hq : poseidon2 p (padOne 0 p.t c) with
      | nil => rw [hq] at hc2; simp at hc2; omega
      | cons a b => simp [hq]
  · have hlen : (r i).1.length = p.t * A ^ d := by
      rw [Cols.length hr i, length_flatten_const (t := p.t), List.length_map, hm, Nat.mul_comm]
      intro u hu
      obtain ⟨c, hc, rfl⟩ := List.mem_map.mp hu
      exact length_poseidon2 hp (hpl c hc)
    have := hle i
    exact ⟨heads_eq_stepBy z ht hlen _, by simp [hlen]; omega⟩

theorem spec_spongeLayer {perm : List S → π → MPC ι σ M Err (List S × π)} (hp : p.WF) (hz : P (fun _ => z) 0)
    (hA : 0 < A) (hAt : A ≤ p.t) (hperm : PackedSpec p P Pre I c N perm) :
    LayerSpec p.t A z (spongeHash p) P Pre I c N (spongeLayer perm p.t) := by
  intro d off l vs s st hoff hl hv hs hpre hst
  refine (spec_spongeLayer' hp hz hA hAt hperm hoff hl hv hs hpre hst).mono ?_
  rintro s' st' ⟨⟨out, h1, h2⟩, h3, h4⟩
  exact ⟨⟨out, h1, fun i => ⟨(h2 i).1, by rw [(h2 i).2]; exact (hs i).1⟩⟩, h3, h4⟩

theorem spec_compressionLayer [Add S] {perm : List S → π → MPC ι σ M Err (List S × π)} (hp : p.WF)
    (hz : P (fun _ => z) 0) (hadd : ∀ x v y u, P x v → P y u → P (fun i => x i + y i) (v + u))
    (hA : 0 < A) (hAt : A ≤ p.t) (hperm : PackedSpec p P Pre I c N perm) :
    LayerSpec p.t A z (compressionHash p) P Pre I c N (compressionLayer perm p.t) := by
  intro d off l vs s st hoff hl hv hs hpre hst
  unfold compressionLayer
  refine Spec.bind (spec_spongeLayer' hp hz hA hAt hperm hoff hl hv hs hpre hst) ?_
  rintro r st' ⟨⟨out, h1, h2⟩, h3, h4⟩
  have ht := t_pos hp
  have hf := fun i => feedForward_spec z (m := A ^ d) (ff := (s i).1) (input := (r i).1) (hs i).1 ht
    (by rw [(h2 i).2]; exact (hs i).1)
  choose l' g1 g2 g3 using hf
  simp only [g1, orPanic, pure_bind]
  refine Spec.pure ⟨⟨fun i => List.zipWith (· + ·) (out i) (stepBy p.t (pad z p.t A (l i))), ?_, fun i => ?_⟩,
    h3, h4⟩
  · have hx := Poseidon2.Cols.stepBy (Cols.pad hz hl p.t hA) p.t
    have h5 := Cols.zipWith (W := P) (f := fun _ => (· + ·)) (g := (· + ·)) h1 hx hadd
    convert h5 using 1
    obtain ⟨ls, k1, k2, rfl⟩ := exists_chunks (A := A) (m := A ^ d) (l := vs) (by rw [hv, pow_succ'])
    have hpl : ∀ u ∈ ls.map (padOne (0 : F) p.t), u.length = p.t := by
      intro u hu
      obtain ⟨c, hc, rfl⟩ := List.mem_map.mp hu
      exact length_padOne 0 (by rw [k2 c hc]; exact hAt)
    rw [pad_flatten 0 p.t hA k2, stepBy_flatten ht hpl, layer_flatten hA k2, layer_flatten hA k2]
    clear hl h1 hx h5 hv k1 hpl hs
    induction ls with
    | nil => rfl
    | cons c ls ih =>
      have hc := k2 c (by simp)
      rw [List.map_cons, List.map_cons, List.map_cons, List.flatMap_cons, ih (fun c hc => k2 c (by simp [hc]))]
      cases c with
      | nil => simp at hc; omega
      | cons a c => simp [padOne, compressionHash, spongeHash]
  · refine ⟨?_, by simp only [g2, (h2 i).2]; exact (hs i).1⟩
    simp only
    rw [g3, (h2 i).1]
    congr 1
    have e : (s i).1 = pad z p.t A (l i) ++ (s i).1.drop (p.t * A ^ d) := by
      rw [← (hs i).2, List.take_append_drop]
    rw [e]
    refine heads_eq_stepBy z ht ?_ _
    rw [length_pad z hA hAt (m := A ^ d)]
    rw [Cols.length hl i, hv, pow_succ']

theorem spec_treeLoop {t : Nat} {H : List F → F} {hash : Nat → List S × π → MPC ι σ M Err (List S × π)}
    (hA : 2 ≤ A) (hAt : A ≤ t) (hh : LayerSpec t A z H P Pre I c N hash) {d off : Nat} {l : ι → List S}
    {vs : List F} {s : ι → List S × π} {st : ι → σ} (hoff : off + c * (∑ k ∈ Finset.range d, A ^ k) ≤ N)
    (hl : Cols P l vs) (hv : vs.length = A ^ d) (hs : ∀ i, Layout z t A d (l i) (s i).1)
    (hpre : Pre off (fun i => (s i).2)) (hst : I st) :
    Spec (fun i => treeLoop orPanic hash z t A (A ^ d) (s i)) st (fun s' st' =>
      (∃ r, P r (merkleRoot H A d vs) ∧ ∀ i, (s' i).1.head? = some (r i)) ∧ I st') := by
  induction d generalizing off l vs s st with
  | zero =>
    have e : (fun i => treeLoop orPanic hash z t A (A ^ 0) (s i)) =
        fun i => (pure (s i) : MPC ι σ M Err (List S × π)) := by
      funext i
      rw [treeLoop, dif_neg (by simp)]
    rw [e]
    match vs, hv with
    | [a], _ =>
      obtain ⟨x, xs, rfl, hx, -⟩ := Cols.uncons hl
      exact Spec.pure ⟨⟨x, by simpa [merkleRoot] using hx, fun i => by simpa [Layout] using hs i⟩, hst⟩
  | succ d ih =>
    have hpow : A ^ (d + 1) / A = A ^ d := by rw [pow_succ']; exact Nat.mul_div_cancel_left _ (by omega)
    have hc : 1 < A ^ (d + 1) ∧ 1 < A := ⟨Nat.one_lt_pow (by omega) (by omega), by omega⟩
    have e : (fun i => treeLoop orPanic hash z t A (A ^ (d + 1)) (s i)) = fun i => (do
        let s ← hash (A ^ d) (s i)
        let input ← orPanic (compact z t A (A ^ d) s.1)
        treeLoop orPanic hash z t A (A ^ d) (input, s.2) : MPC ι σ M Err (List S × π)) := by
      funext i
      rw [treeLoop, dif_pos hc, hpow]
    rw [e]
    rw [Finset.sum_range_succ, Nat.mul_add] at hoff
    refine Spec.bind (hh d off l vs s st (by omega) hl hv hs hpre hst) ?_
    rintro s1 st1 ⟨⟨out, h1, h2⟩, hpre1, hst1⟩
    have hcomp := fun i => layout_step z hA hAt (h2 i).2 (h2 i).1
    choose l' g1 g2 using hcomp
    simp only [g1, orPanic, pure_bind]
    have hlay := length_layer (h := H) (A := A) (m := A ^ d) (by omega) (l := vs) (by rw [hv, pow_succ'])
    have := ih (off := off + c * A ^ d) (s := fun i => (l' i, (s1 i).2)) (by omega) h1 hlay g2 hpre1 hst1
    rw [merkleRoot_layer (by omega) d hv]
    exact this

theorem num_hashes {A d : Nat} (hA : 2 ≤ A) : (A ^ d - 1) / (A - 1) = ∑ k ∈ Finset.range d, A ^ k :=
  (Nat.geomSum_eq hA d).symm

/-! ## Replicated shares -/

section Rep3

variable {R : Type} {ty : A2BType} {K : Type} [Field K] [Sample R K] [Codec M (List K)] {q : Params K} {rs : List K}
  {st : PartyID → Rep3State R}

theorem packed_rep3 (hp : q.WF) (hd : q.d = 5) :
    PackedSpec (M := M) q (IsShare (G := K)) (fun off pre => IsPrecomputed (IsShare (G := K)) pre rs off)
      (Corr (R := R) ty) q.numSbox rs.length (permutationPacked q) := by
  intro off x v pre st hx hv hpre hoff hst
  have := spec_permutationPacked (M := M) hp hd hx hv hpre hoff hst
  rwa [List.map_congr_left fun u hu => permutationRounds_poseidon2 hp (hv u hu)] at this

theorem spec_merkleSpongeRep3 (hp : q.WF) (hd : q.d = 5) (hA : 2 ≤ A) (hAt : A < q.t) {d : Nat} (h0 : 0 < d)
    {x : PartyID → List (Share K)} {v : List K} (hx : IsShares x v) (hv : v.length = A ^ d) (hst : Corr ty st) :
    Spec (M := M) (fun i => merkleSpongeRep3 q A (x i)) st (fun r st' =>
      IsShare r (merkleRoot (spongeHash q) A d v) ∧ Corr ty st') := by
  have hlen : ∀ i, (x i).length = A ^ d := fun i => by rw [Cols.length (P := IsShare) hx i, hv]
  simp only [merkleSpongeRep3, hAt, if_true, hlen, checkLen_pow hA, orPanic, pure_bind]
  refine Spec.bind (spec_precomputeRep3 hd _ hst) ?_
  rintro pre st1 ⟨⟨rs, hrs, hpre⟩, hst1⟩
  refine Spec.bind (spec_treeLoop (I := Corr ty) (P := IsShare) (off := 0) (vs := v) (l := x) hA hAt.le
    (spec_spongeLayer hp IsShare.zero (by omega) hAt.le (packed_rep3 (rs := rs) hp hd)) ?_ hx hv ?_ hpre hst1) ?_
  · rw [hrs, Nat.zero_add, num_hashes hA]
  · intro i
    cases d with
    | zero => omega
    | succ d => exact layout_pad (by omega) hAt.le (hlen i)
  · rintro s st2 ⟨⟨r, h1, h2⟩, hst2⟩
    simp only [h2, orPanic]
    exact Spec.pure ⟨h1, hst2⟩

theorem spec_merkleCompressionRep3 (hp : q.WF) (hd : q.d = 5) (hA : 2 ≤ A) (hAt : A ≤ q.t) {d : Nat}
    (h0 : 0 < d ∨ q.t = A)
    {x : PartyID → List (Share K)} {v : List K} (hx : IsShares x v) (hv : v.length = A ^ d) (hst : Corr ty st) :
    Spec (M := M) (fun i => merkleCompressionRep3 q A (x i)) st (fun r st' =>
      IsShare r (merkleRoot (compressionHash q) A d v) ∧ Corr ty st') := by
  have hlen : ∀ i, (x i).length = A ^ d := fun i => by rw [Cols.length (P := IsShare) hx i, hv]
  simp only [merkleCompressionRep3, hAt, if_true, hlen, checkLen_pow hA, orPanic, pure_bind]
  refine Spec.bind (spec_precomputeRep3 hd _ hst) ?_
  rintro pre st1 ⟨⟨rs, hrs, hpre⟩, hst1⟩
  refine Spec.bind (spec_treeLoop (I := Corr ty) (P := IsShare) (off := 0) (vs := v) (l := x) hA hAt
    (spec_compressionLayer hp IsShare.zero (fun _ _ _ _ h h' => h.add h') (by omega) hAt
      (packed_rep3 (rs := rs) hp hd)) ?_ hx hv ?_ hpre hst1) ?_
  · rw [hrs, Nat.zero_add, num_hashes hA]
  · exact fun i => layout_padded (by omega) hAt (hlen i) h0
  · rintro s st2 ⟨⟨r, h1, h2⟩, hst2⟩
    simp only [h2, orPanic]
    exact Spec.pure ⟨h1, hst2⟩

end Rep3

/-! ## Shamir shares -/

section Shamir

open Shamir hiding orPanic

variable {R : Type} {n t : Nat} {K : Type} [Field K] [Sample R K] [Codec M K] [Codec M (List K)] {q : Params K}
  {rs : List K} {st : Fin n → ShamirState n R K}

theorem packed_shamir (hp : q.WF) (hd : q.d = 5) :
    PackedSpec (M := M) q (IsShamir (V := K) K t)
      (fun off pre => IsPrecomputed (IsShamir (V := K) K t) pre rs off)
      (ShCorr (n := n) (R := R) t) q.numSbox rs.length (permutationPackedShamir q) := by
  intro off x v pre st hx hv hpre hoff hst
  have := spec_permutationPackedShamir (M := M) hp hd hx hv hpre hoff hst
  rwa [List.map_congr_left fun u hu => permutationRounds_poseidon2 hp (hv u hu)] at this

theorem spec_ensurePairsCorr (hst : ShCorr t st) (num : Nat) :
    Spec (M := M) (fun _ => (ensurePairs num : ShamirM n R K M Unit)) st (fun _ st' => ShCorr t st') := by
  obtain ⟨buf, hb⟩ := hst.rng.pairs
  refine (spec_ensurePairs hst hb num).mono ?_
  intro _ st' h
  split at h
  · rw [h]; exact hst
  · rw [h]; exact hst.withRng (g := afterBuffer t _ fun i => (st i).rng) hst.rng.after

theorem spec_merkleSpongeShamir (hp : q.WF) (hd : q.d = 5) (hA : 2 ≤ A) (hAt : A < q.t) {d : Nat} (h0 : 0 < d)
    {x : Fin n → List K} {v : List K} (hx : IsShamirs K t x v) (hv : v.length = A ^ d) (hst : ShCorr t st) :
    Spec (M := M) (fun i => merkleSpongeShamir q A (x i)) st (fun r st' =>
      IsShamir K t r (merkleRoot (spongeHash q) A d v) ∧ ShCorr t st') := by
  have hlen : ∀ i, (x i).length = A ^ d := fun i => by rw [Cols.length (P := IsShamir (V := K) K t) hx i, hv]
  simp only [merkleSpongeShamir, hAt, if_true, hlen, checkLen_pow hA, orPanic, pure_bind]
  refine Spec.bind (spec_ensurePairsCorr hst _) ?_
  intro _ st0 hst0
  refine Spec.bind (spec_precomputeShamir hd _ hst0) ?_
  rintro pre st1 ⟨⟨rs, hrs, hpre⟩, hst1⟩
  refine Spec.bind (spec_treeLoop (I := ShCorr t) (P := IsShamir (V := K) K t) (off := 0) (vs := v) (l := x) hA
    hAt.le (spec_spongeLayer hp (IsShamir.const t 0) (by omega) hAt.le (packed_shamir (rs := rs) hp hd)) ?_ hx hv
    ?_ hpre hst1) ?_
  · rw [hrs, Nat.zero_add, num_hashes hA]
  · intro i
    cases d with
    | zero => omega
    | succ d => exact layout_pad (by omega) hAt.le (hlen i)
  · rintro s st2 ⟨⟨r, h1, h2⟩, hst2⟩
    simp only [h2, orPanic]
    exact Spec.pure ⟨h1, hst2⟩

theorem spec_merkleCompressionShamir (hp : q.WF) (hd : q.d = 5) (hA : 2 ≤ A) (hAt : A ≤ q.t) {d : Nat}
    (h0 : 0 < d ∨ q.t = A)
    {x : Fin n → List K} {v : List K} (hx : IsShamirs K t x v) (hv : v.length = A ^ d) (hst : ShCorr t st) :
    Spec (M := M) (fun i => merkleCompressionShamir q A (x i)) st (fun r st' =>
      IsShamir K t r (merkleRoot (compressionHash q) A d v) ∧ ShCorr t st') := by
  have hlen : ∀ i, (x i).length = A ^ d := fun i => by rw [Cols.length (P := IsShamir (V := K) K t) hx i, hv]
  simp only [merkleCompressionShamir, hAt, if_true, hlen, checkLen_pow hA, orPanic, pure_bind]
  refine Spec.bind (spec_ensurePairsCorr hst _) ?_
  intro _ st0 hst0
  refine Spec.bind (spec_precomputeShamir hd _ hst0) ?_
  rintro pre st1 ⟨⟨rs, hrs, hpre⟩, hst1⟩
  refine Spec.bind (spec_treeLoop (I := ShCorr t) (P := IsShamir (V := K) K t) (off := 0) (vs := v) (l := x) hA
    hAt (spec_compressionLayer hp (IsShamir.const t 0) (fun _ _ _ _ h h' => h.add h') (by omega) hAt
      (packed_shamir (rs := rs) hp hd)) ?_ hx hv ?_ hpre hst1) ?_
  · rw [hrs, Nat.zero_add, num_hashes hA]
  · exact fun i => layout_padded (by omega) hAt (hlen i) h0
  · rintro s st2 ⟨⟨r, h1, h2⟩, hst2⟩
    simp only [h2, orPanic]
    exact Spec.pure ⟨h1, hst2⟩

end Shamir

end Verif.Merkle
