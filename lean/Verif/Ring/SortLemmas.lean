import Verif.Ring.Sort
import Verif.Ring.RingLemmas
import Verif.Rep3.InjectLemmas
import Mathlib.Logic.Equiv.Fin.Basic
import Mathlib.Data.List.OfFn
import Mathlib.GroupTheory.Perm.Basic

/-!
# Lemmas about shuffles and permutations
-/

namespace Verif

open PartyID

section Lists

variable {α β γ : Type} {n m : Nat}

theorem mapM_some {f : α → Option β} {g : α → β} {l : List α} (h : ∀ x ∈ l, f x = some (g x)) :
    l.mapM f = some (l.map g) := by
  induction l with
  | nil => rfl
  | cons x xs ih =>
    rw [List.mapM_cons, h x (by simp), ih fun y hy => h y (by simp [hy])]
    rfl

theorem list_eq_ofFn (l : List α) (h : l.length = n) : ∃ f : Fin n → α, l = List.ofFn f := by
  subst h
  exact ⟨fun j => l[j], List.ofFn_getElem.symm⟩

theorem map_ofFn' (g : α → β) (f : Fin n → α) : (List.ofFn f).map g = List.ofFn fun j => g (f j) := by
  rw [List.map_ofFn]; rfl

theorem zipWith_ofFn (g : α → β → γ) (f : Fin n → α) (f' : Fin n → β) :
    List.zipWith g (List.ofFn f) (List.ofFn f') = List.ofFn fun j => g (f j) (f' j) := by
  apply List.ext_getElem <;> simp

theorem ofFn_zip (f : Fin n → α) (f' : Fin n → β) :
    (List.ofFn f).zip (List.ofFn f') = List.ofFn fun j => (f j, f' j) := by
  apply List.ext_getElem <;> simp

theorem ofFn_getElem? (f : Fin n → α) (j : Fin n) : (List.ofFn f)[(j : Nat)]? = some (f j) := by
  simp [List.getElem?_ofFn]

theorem replicate_eq_ofFn (x : α) : List.replicate n x = List.ofFn fun _ : Fin n => x := by
  apply List.ext_getElem <;> simp

theorem range_eq_ofFn : List.range n = List.ofFn fun j : Fin n => (j : Nat) := by
  apply List.ext_getElem <;> simp

/-- One swap of the shuffle. -/
theorem swapAt_ofFn (f : Fin n → α) (i j : Fin n) :
    swapAt (List.ofFn f) i j = List.ofFn fun k => f (Equiv.swap i j k) := by
  unfold swapAt
  rw [ofFn_getElem?, ofFn_getElem?]
  apply List.ext_getElem
  · simp
  · intro k h1 h2
    simp only [List.length_set, List.length_ofFn] at h1
    simp only [List.getElem_set, List.getElem_ofFn]
    by_cases hj : (j : Nat) = k
    · rw [if_pos hj]
      have : (⟨k, h1⟩ : Fin n) = j := Fin.ext hj.symm
      rw [this, Equiv.swap_apply_right]
    · rw [if_neg hj]
      have hj' : (⟨k, h1⟩ : Fin n) ≠ j := fun h => hj (by rw [← h])
      by_cases hi : (i : Nat) = k
      · rw [if_pos hi]
        have : (⟨k, h1⟩ : Fin n) = i := Fin.ext hi.symm
        rw [this, Equiv.swap_apply_left]
      · rw [if_neg hi]
        have hi' : (⟨k, h1⟩ : Fin n) ≠ i := fun h => hi (by rw [← h])
        rw [Equiv.swap_apply_of_ne_of_ne hi' hj']

variable {R : Type} [∀ n, Sample R (Fin (n + 1))]

theorem shuffleLoop_ofFn (r : R) (i : Nat) (hi : i < n) :
    ∃ (σ : Equiv.Perm (Fin n)) (r' : R), ∀ (α : Type) (f : Fin n → α),
      shuffleLoop i (List.ofFn f) r = (List.ofFn fun k => f (σ k), r') := by
  induction i generalizing r with
  | zero => exact ⟨1, r, fun α f => rfl⟩
  | succ i ih =>
    obtain ⟨σ, r', h⟩ := ih (Sample.sample (α := Fin (i + 2)) r).2 (by omega)
    refine ⟨σ.trans (Equiv.swap ⟨i + 1, hi⟩ ⟨(Sample.sample (α := Fin (i + 2)) r).1, by omega⟩), r', fun α f => ?_⟩
    rw [shuffleLoop]
    have := swapAt_ofFn f ⟨i + 1, hi⟩ ⟨(Sample.sample (α := Fin (i + 2)) r).1, by omega⟩
    simp only at this
    simp only
    rw [this, h]
    rfl

/-- `shuffle` permutes its slice: with a permutation that depends on the generator and the length only. -/
theorem shuffleSlice_ofFn (r : R) (n : Nat) :
    ∃ (σ : Equiv.Perm (Fin n)) (r' : R), ∀ (α : Type) (f : Fin n → α),
      shuffleSlice (List.ofFn f) r = (List.ofFn fun k => f (σ k), r') := by
  cases n with
  | zero => exact ⟨1, r, fun α f => rfl⟩
  | succ n =>
    obtain ⟨σ, r', h⟩ := shuffleLoop_ofFn (n := n + 1) r n (by omega)
    refine ⟨σ, r', fun α f => ?_⟩
    unfold shuffleSlice
    simp only [List.length_ofFn, Nat.add_sub_cancel]
    exact h α f

end Lists

namespace Rep3.Radix

open Verif.Rep3.Ring (orPanic)

section Local

variable {F G H : Type} {n m : Nat}

theorem lookup_ofFn (f : Fin n → F) (g : Fin m → Fin n) :
    lookup (List.ofFn f) (List.ofFn fun j => (g j : Nat)) = some (List.ofFn fun j => f (g j)) := by
  unfold lookup
  rw [show (List.ofFn fun j => (g j : Nat)) = (List.ofFn g).map (fun x : Fin n => (x : Nat)) from (map_ofFn' _ _).symm,
    List.mapM_map, mapM_some (g := f)]
  · rw [map_ofFn']
  · intro x _
    exact ofFn_getElem? f x

theorem lookupWith_ofFn (op : F → G → H) (f : Fin n → F) (g : Fin m → Fin n) (al : Fin m → G) :
    lookupWith op (List.ofFn f) (List.ofFn fun j => (g j : Nat)) (List.ofFn al) =
      some (List.ofFn fun j => op (f (g j)) (al j)) := by
  unfold lookupWith
  rw [ofFn_zip, show (List.ofFn fun j => ((g j : Nat), al j)) = (List.ofFn fun j => (g j, al j)).map
    (fun x : Fin n × G => ((x.1 : Nat), x.2)) from by rw [map_ofFn'], List.mapM_map,
    mapM_some (g := fun x : Fin n × G => op (f x.1) x.2)]
  · rw [map_ofFn']
  · intro x _
    show (do let y ← (List.ofFn f)[(x.1 : Nat)]?; pure (op y x.2)) = _
    rw [ofFn_getElem?]
    rfl

theorem overwrite_eq {dst new : List F} (h : dst.length = new.length) : overwrite dst new = new := by
  induction dst generalizing new with
  | nil => cases new <;> simp_all [overwrite]
  | cons d ds ih =>
    cases new with
    | nil => simp at h
    | cons x xs => simp only [overwrite]; rw [ih (by simpa using h)]

theorem setA_ofFn (x y b : Fin n → F) :
    setA (List.ofFn fun j => ⟨y j, b j⟩) (List.ofFn x) = List.ofFn fun j => ⟨x j, b j⟩ := by
  induction n with
  | zero => rfl
  | succ n ih =>
    simp only [List.ofFn_succ, setA]
    rw [ih]

theorem setB_ofFn (x y b : Fin n → F) :
    setB (List.ofFn fun j => ⟨b j, y j⟩) (List.ofFn x) = List.ofFn fun j => ⟨b j, x j⟩ := by
  induction n with
  | zero => rfl
  | succ n ih =>
    simp only [List.ofFn_succ, setB]
    rw [ih]

theorem overwrite_ofFn (x y : Fin n → F) : overwrite (List.ofFn x) (List.ofFn y) = List.ofFn y :=
  overwrite_eq (by simp)

theorem place_spec (idx : List Nat) (xs dst : List F) (hlen : idx.length = xs.length) (hnd : idx.Nodup)
    (hlt : ∀ i ∈ idx, i < dst.length) :
    ∃ r, place dst idx xs = some r ∧ r.length = dst.length ∧ (∀ k, k ∉ idx → r[k]? = dst[k]?) ∧
      ∀ k i : Nat, idx[k]? = some i → r[i]? = xs[k]? := by
  induction idx generalizing xs dst with
  | nil => exact ⟨dst, by simp [place], rfl, fun _ _ => rfl, by simp⟩
  | cons i idx ih =>
    cases xs with
    | nil => simp at hlen
    | cons x xs =>
      obtain ⟨hi, hnd⟩ := List.nodup_cons.1 hnd
      obtain ⟨r, h1, h2, h3, h4⟩ := ih xs (dst.set i x) (by simpa using hlen) hnd
        (fun j hj => by simpa using hlt j (by simp [hj]))
      refine ⟨r, ?_, by simpa using h2, ?_, ?_⟩
      · rw [place, if_pos (hlt i (by simp)), h1]
      · intro k hk
        simp only [List.mem_cons, not_or] at hk
        rw [h3 k hk.2, List.getElem?_set]
        simp [Ne.symm hk.1]
      · intro k j hk
        cases k with
        | zero =>
          obtain rfl : i = j := by simpa using hk
          rw [h3 i hi, List.getElem?_set]
          simp [hlt i (by simp)]
        | succ k => simpa using h4 k j (by simpa using hk)

/-- Writing through a permutation. -/
theorem place_ofFn (σ : Equiv.Perm (Fin n)) (f : Fin n → F) (dst : List F) (hd : dst.length = n) :
    place dst (List.ofFn fun j => (σ j : Nat)) (List.ofFn f) = some (List.ofFn fun j => f (σ.symm j)) := by
  obtain ⟨r, h1, h2, -, h4⟩ := place_spec (List.ofFn fun j => (σ j : Nat)) (List.ofFn f) dst (by simp)
    (List.nodup_ofFn.2 fun a b h => σ.injective (Fin.ext h)) (by
      intro i hi
      obtain ⟨j, rfl⟩ := (List.mem_ofFn' _ _).1 hi
      rw [hd]; exact (σ j).isLt)
  rw [h1]
  congr 1
  apply List.ext_getElem?
  intro k
  by_cases hk : k < n
  · have := h4 (σ.symm ⟨k, hk⟩) k (by rw [ofFn_getElem?]; simp)
    rw [this, ofFn_getElem?]
    exact (ofFn_getElem? (fun j => f (σ.symm j)) ⟨k, hk⟩).symm
  · rw [List.getElem?_eq_none (by omega), List.getElem?_eq_none (by simp; omega)]

theorem pred_succ {k : Nat} (hk : k + 1 < 2 ^ 32) : pred (BitVec.ofNat 32 (k + 1)) = some k := by
  unfold pred
  rw [BitVec.toNat_ofNat, Nat.mod_eq_of_lt hk, if_neg (by omega), Nat.add_sub_cancel]

theorem isShares_ofFn [AddCommGroup G] {a : PartyID → List (Share G)} {f : Fin n → G} (h : IsShares a (List.ofFn f)) :
    ∃ s : Fin n → PartyID → Share G, (a = fun i => List.ofFn fun j => s j i) ∧ ∀ j, IsShare (s j) (f j) := by
  obtain ⟨l, rfl, hl⟩ := h
  have hlen : l.length = n := by simpa using hl.length_eq
  obtain ⟨s, rfl⟩ := list_eq_ofFn l hlen
  refine ⟨s, ?_, fun j => ?_⟩
  · funext i
    rw [map_ofFn']
  · have := (List.forall₂_iff_get.1 hl).2 j (by simp) (by simp)
    simpa using this

theorem isShares_of_ofFn [AddCommGroup G] {s : Fin n → PartyID → Share G} {f : Fin n → G} (h : ∀ j, IsShare (s j) (f j)) :
    IsShares (fun i => List.ofFn fun j => s j i) (List.ofFn f) := by
  refine ⟨List.ofFn s, ?_, ?_⟩
  · funext i
    rw [map_ofFn']
  · rw [List.forall₂_iff_get]
    simp [h]

theorem isShares_three [AddCommGroup G] {s0 s1 s2 : Fin n → Share G} {f : Fin n → G}
    (h : ∀ j, IsShare (three (s0 j) (s1 j) (s2 j)) (f j)) :
    IsShares (three (List.ofFn s0) (List.ofFn s1) (List.ofFn s2)) (List.ofFn f) := by
  convert isShares_of_ofFn h using 1
  funext i
  cases i <;> rfl

end Local

section Draws

variable {R M F : Type} {ty : A2BType}

theorem withRand_apply (f : Rep3Rand R → F × Rep3Rand R) (i : PartyID) (s : Rep3State R) :
    (withRand f : Rep3M R M F) i s = .ret ((f s.rngs.rand).1, setRand s (f s.rngs.rand).2) := rfl

theorem orPanic_some (x : F) (i : PartyID) (s : Rep3State R) :
    (orPanic (some x) : Rep3M R M F) i s = .ret (x, s) := rfl

@[simp] theorem setRand_setRand (s : Rep3State R) (g g' : Rep3Rand R) : setRand (setRand s g) g' = setRand s g' := rfl

@[simp] theorem setRand_id (s : Rep3State R) (g : Rep3Rand R) : (setRand s g).id = s.id := rfl

/-- The values of `n` draws. -/
def draws [Sample R F] (r : R) (n : Nat) : Fin n → F :=
  fun j => (sampleN r n).1[j]'(by simp)

theorem sampleN_fst [Sample R F] (r : R) (n : Nat) : (sampleN (α := F) r n).1 = List.ofFn (draws r n) := by
  apply List.ext_getElem <;> simp [draws]

/-- The generator after `n` draws. -/
def after (F : Type) [Sample R F] (r : R) (n : Nat) : R := (sampleN (α := F) r n).2

theorem sampleN_eq [Sample R F] (r : R) (n : Nat) :
    sampleN (α := F) r n = (List.ofFn (draws r n), after F r n) := by
  rw [← sampleN_fst]; rfl

theorem many1_eq [Sample R F] (n : Nat) (g : Rep3Rand R) :
    Rep3Rand.many1 (α := F) n g = (List.ofFn (draws g.rng1 n), ⟨after F g.rng1 n, g.rng2⟩) := by
  simp [Rep3Rand.many1, sampleN_eq]

theorem many2_eq [Sample R F] (n : Nat) (g : Rep3Rand R) :
    Rep3Rand.many2 (α := F) n g = (List.ofFn (draws g.rng2 n), ⟨g.rng1, after F g.rng2 n⟩) := by
  simp [Rep3Rand.many2, sampleN_eq]

theorem manyPair_eq [Sample R F] (n : Nat) (g : Rep3Rand R) :
    Rep3Rand.manyPair (α := F) n g = ((List.ofFn (draws g.rng1 n), List.ofFn (draws g.rng2 n)),
      ⟨after F g.rng1 n, after F g.rng2 n⟩) := by
  simp [Rep3Rand.manyPair, sampleN_eq]

theorem corr_three {st : PartyID → Rep3State R} (hst : Corr ty st) {g0 g1 g2 : Rep3Rand R}
    (h0 : g0.rng2 = g2.rng1) (h1 : g1.rng2 = g0.rng1) (h2 : g2.rng2 = g1.rng1) :
    Corr ty (three (setRand (st ID0) g0) (setRand (st ID1) g1) (setRand (st ID2) g2)) := by
  have := hst.setRand (g := three g0 g1 g2) (by intro i; cases i <;> simp [h0, h1, h2])
  convert this using 1
  funext i
  cases i <;> rfl

end Draws

/-- The three parties hold these permutations: each party its own one and the one of the previous party. -/
def IsPerm {n : Nat} (pi : PartyID → PermShare) (σ : PartyID → Equiv.Perm (Fin n)) : Prop :=
  ∀ i, pi i = List.ofFn fun j => ⟨BitVec.ofNat 32 (σ i j), BitVec.ofNat 32 (σ i.prev j)⟩

section Specs

variable {R M F : Type} {ty : A2BType} {n : Nat} {st : PartyID → Rep3State R}

theorem spec_randomPerm [∀ n, Sample R (Fin (n + 1))] {len : PartyID → Nat} (hl : ∀ i, len i = n) (hn : n < 2 ^ 32)
    (hst : Corr ty st) :
    Spec (M := M) (fun i => randomPerm (len i)) st (fun r st' => (∃ σ, IsPerm (n := n) r σ) ∧ Corr ty st') := by
  obtain rfl : len = fun _ => n := funext hl
  have hx : ∀ i : PartyID, ∃ (σ : Equiv.Perm (Fin n)) (r' : R), ∀ (α : Type) (f : Fin n → α),
      shuffleSlice (List.ofFn f) (st i).rngs.rand.rng1 = (List.ofFn fun k => f (σ k), r') := fun i =>
    shuffleSlice_ofFn _ n
  choose σ r' h using hx
  have h2 : ∀ (i : PartyID) (α : Type) (f : Fin n → α),
      shuffleSlice (List.ofFn f) (st i).rngs.rand.rng2 = (List.ofFn fun k => f (σ i.prev k), r' i.prev) := by
    intro i α f
    rw [hst.rand i]
    exact h _ _ _
  have e : (List.range (n % 2 ^ 32)).map (BitVec.ofNat 32) = List.ofFn fun j : Fin n => BitVec.ofNat 32 (j : Nat) := by
    rw [Nat.mod_eq_of_lt hn, range_eq_ofFn, map_ofFn']
  have e2 : ∀ i, Rep3Rand.randomPerm ((List.range (n % 2 ^ 32)).map (BitVec.ofNat 32)) (st i).rngs.rand =
      ((List.ofFn fun j => BitVec.ofNat 32 (σ i j : Nat), List.ofFn fun j => BitVec.ofNat 32 (σ i.prev j : Nat)),
        ⟨r' i, r' i.prev⟩) := by
    intro i
    rw [e]
    simp only [Rep3Rand.randomPerm]
    rw [h i _ fun j : Fin n => BitVec.ofNat 32 (j : Nat), h2 i _ fun j : Fin n => BitVec.ofNat 32 (j : Nat)]
  refine Spec.bind (Q₁ := fun r st' => (r = fun i => (List.ofFn fun j => BitVec.ofNat 32 (σ i j : Nat),
    List.ofFn fun j => BitVec.ofNat 32 (σ i.prev j : Nat))) ∧ Corr ty st') (spec_withRand ⟨?_, hst.setRand ?_⟩) ?_
  · funext i
    rw [e2]
  · intro i
    rw [e2, e2]
  · rintro v st' ⟨rfl, hst'⟩
    refine Spec.pure ⟨⟨σ, fun i => ?_⟩, hst'⟩
    simp only
    rw [zipWith_ofFn]

theorem IsPerm.a {pi : PartyID → PermShare} {σ : PartyID → Equiv.Perm (Fin n)} (h : IsPerm pi σ) (hn : n < 2 ^ 32)
    (i : PartyID) : ((pi i).map fun p => p.a.toNat) = List.ofFn fun j => (σ i j : Nat) := by
  rw [h i, map_ofFn']
  congr 1
  funext j
  simp only [BitVec.toNat_ofNat]
  exact Nat.mod_eq_of_lt (lt_trans (σ i j).isLt hn)

theorem IsPerm.b {pi : PartyID → PermShare} {σ : PartyID → Equiv.Perm (Fin n)} (h : IsPerm pi σ) (hn : n < 2 ^ 32)
    (i : PartyID) : ((pi i).map fun p => p.b.toNat) = List.ofFn fun j => (σ i.prev j : Nat) := by
  rw [h i, map_ofFn']
  congr 1
  funext j
  simp only [BitVec.toNat_ofNat]
  exact Nat.mod_eq_of_lt (lt_trans (σ i.prev j).isLt hn)

theorem IsPerm.length {pi : PartyID → PermShare} {σ : PartyID → Equiv.Perm (Fin n)} (h : IsPerm pi σ) (i : PartyID) :
    (pi i).length = n := by
  rw [h i]; simp

variable [CommRing F] [Sample R F] [Codec M (List F)]

theorem spec_shuffle {pi : PartyID → PermShare} {σ : PartyID → Equiv.Perm (Fin n)} (hpi : IsPerm pi σ) (hn : n < 2 ^ 32)
    {priv : PartyID → List (Share F)} {vs pub : List F} {f : Fin n → F} (hx : IsShares priv vs)
    (hf : vs ++ pub = List.ofFn f) (hst : Corr ty st) :
    Spec (M := M) (fun i => shuffle (pi i) (priv i) pub) st (fun r st' =>
      IsShares r (List.ofFn fun j => f (σ ID0 (σ ID2 (σ ID1 j)))) ∧ Corr ty st') := by
  have hlen : vs.length + pub.length = n := by
    have := congrArg List.length hf
    simpa using this
  have hxl : ∀ i, (priv i).length = vs.length := Cols.length hx
  obtain ⟨β1, hβ1⟩ := list_eq_ofFn (n := n) ((priv ID0).map (fun a => a.a + a.b) ++ pub) (by simp [hxl, hlen])
  obtain ⟨β2, hβ2⟩ := list_eq_ofFn (n := n) ((priv ID1).map (fun a => a.a) ++ pub.map (fun _ => 0))
    (by simp [hxl, hlen])
  have hβ : ∀ j, β1 j + β2 j = f j := by
    have : List.zipWith (· + ·) ((priv ID0).map (fun a => a.a + a.b) ++ pub)
        ((priv ID1).map (fun a => a.a) ++ pub.map (fun _ => 0)) = vs ++ pub := by
      rw [List.zipWith_append (by simp [hxl])]
      congr 1
      · obtain ⟨l, rfl, hl⟩ := hx
        clear hf hlen hβ1 hβ2 hxl
        induction hl with
        | nil => rfl
        | cons h _ ih =>
          simp only [List.map_cons, List.zipWith_cons_cons] at ih ⊢
          rw [ih]
          congr 1
          have := h.2
          rw [← this, h.b0]
          ring
      · clear hf hlen hβ1 hβ2
        induction pub <;> simp_all
    rw [hβ1, hβ2, zipWith_ofFn, hf, List.ofFn_inj] at this
    exact fun j => congrFun this j
  have hi := hst.id
  have hr0 := hst.rand ID0
  have hr1 := hst.rand ID1
  have hr2 := hst.rand ID2
  simp only [ID0_prev, ID1_prev, ID2_prev] at hr0 hr1 hr2
  refine Spec3 ?_
  have ht : ((pi ID1).take n) = pi ID1 := List.take_of_length_le (by rw [hpi.length])
  simp only [shuffle, MPC.bind_apply, stateId, MPC.modifyGet_apply, Prog.ret_bind, hi, withRand_apply, manyPair_eq,
    many1_eq, many2_eq, hpi.length, hxl, hlen, hpi.a hn, hpi.b hn, hβ1, hβ2, lookupWith_ofFn, orPanic_some,
    overwrite_ofFn, List.length_ofFn, sendNextMany, reshareMany, sendAndRecvMany, recvPrevMany, sendMany, recvMany,
    MPC.netId_apply, MPC.recv_apply, MPC.send_apply, ht]
  simp [lookupWith_ofFn, lookup_ofFn, orPanic_some, overwrite_ofFn, zipWith_ofFn, setA_ofFn, setB_ofFn, map_ofFn',
    -List.map_ofFn]
  refine ⟨?_, corr_three hst ?_ ?_ ?_⟩
  · refine isShares_three fun j => ?_
    · rw [isShare_iff]
      simp only [three_0, three_1, three_2]
      rw [hr0, hr1, ← hβ]
      refine ⟨⟨rfl, rfl, ?_⟩, ?_⟩ <;> ring
  · rw [hr0]
  · rw [hr1]
  · rw [hr2]

theorem spec_shuffleReveal {pi : PartyID → PermShare} {σ : PartyID → Equiv.Perm (Fin n)} (hpi : IsPerm pi σ)
    (hn : n < 2 ^ 32) {x : PartyID → List (Share F)} {f : Fin n → F} (hx : IsShares x (List.ofFn f)) (hst : Corr ty st) :
    Spec (M := M) (fun i => shuffleReveal (pi i) (x i)) st (fun r st' =>
      (r = fun _ => List.ofFn fun j => f (σ ID0 (σ ID2 (σ ID1 j)))) ∧ Corr ty st') := by
  obtain ⟨s, rfl, hs⟩ := isShares_ofFn hx
  have hi := hst.id
  have hr0 := hst.rand ID0
  have hr1 := hst.rand ID1
  have hr2 := hst.rand ID2
  simp only [ID0_prev, ID1_prev, ID2_prev] at hr0 hr1 hr2
  refine Spec3 ?_
  simp only [shuffleReveal, MPC.bind_apply, stateId, MPC.modifyGet_apply, Prog.ret_bind, hi, withRand_apply, manyPair_eq,
    many1_eq, many2_eq, hpi.length, hpi.a hn, hpi.b hn, map_ofFn', lookupWith_ofFn, lookup_ofFn, orPanic_some,
    List.length_ofFn, sendBothMany, sendAndRecvMany, sendMany, recvMany,
    MPC.netId_apply, MPC.recv_apply, MPC.send_apply]
  simp [lookupWith_ofFn, lookup_ofFn, orPanic_some, zipWith_ofFn, map_ofFn',
    -List.map_ofFn]
  refine ⟨?_, corr_three (g2 := (st ID2).rngs.rand) hst ?_ ?_ ?_⟩
  · have e : ∀ j k, (s j ID1).a + draws (F := F) (st ID1).rngs.rand.rng2 n k +
        ((s j ID0).a + (s j ID0).b - draws (st ID0).rngs.rand.rng1 n k) = f j := by
      intro j k
      rw [← (hs j).2, hr1, (hs j).b0]
      ring
    funext i
    cases i <;> simp [e]
  · rw [hr0]
  · rw [hr1]
  · rw [hr2]

theorem spec_unshuffle {pi : PartyID → PermShare} {σ : PartyID → Equiv.Perm (Fin n)} (hpi : IsPerm pi σ)
    (hn : n < 2 ^ 32) {x : PartyID → List (Share F)} {f : Fin n → F} (hx : IsShares x (List.ofFn f)) (hst : Corr ty st) :
    Spec (M := M) (fun i => unshuffle (pi i) (x i)) st (fun r st' =>
      IsShares r (List.ofFn fun j => f ((σ ID1).symm ((σ ID2).symm ((σ ID0).symm j)))) ∧ Corr ty st') := by
  obtain ⟨s, rfl, hs⟩ := isShares_ofFn hx
  have hi := hst.id
  have hr0 := hst.rand ID0
  have hr1 := hst.rand ID1
  have hr2 := hst.rand ID2
  simp only [ID0_prev, ID1_prev, ID2_prev] at hr0 hr1 hr2
  refine Spec3 ?_
  simp only [unshuffle, MPC.bind_apply, stateId, MPC.modifyGet_apply, Prog.ret_bind, hi, withRand_apply, manyPair_eq,
    many1_eq, many2_eq, hpi.length, hpi.a hn, hpi.b hn, map_ofFn', zipWith_ofFn, place_ofFn, orPanic_some,
    List.length_ofFn, List.length_replicate, sendBothMany, sendAndRecvMany, sendMany, recvMany,
    MPC.netId_apply, MPC.recv_apply, MPC.send_apply]
  simp [place_ofFn, orPanic_some, zipWith_ofFn, map_ofFn', setA_ofFn, setB_ofFn, -List.map_ofFn]
  refine ⟨?_, corr_three hst ?_ ?_ ?_⟩
  · refine isShares_three fun j => ?_
    · rw [isShare_iff]
      simp only [three_0, three_1, three_2]
      rw [hr0, hr2]
      have h1 := fun k => (hs k).2
      have h2 := fun k => (hs k).b1
      have h3 := fun k => (hs k).b2
      simp only [h2, h3, ← h1]
      refine ⟨⟨trivial, ?_, trivial⟩, ?_⟩ <;> ring
  · rw [hr0]
  · rw [hr1]
  · rw [hr2]

end Specs

end Rep3.Radix

end Verif
