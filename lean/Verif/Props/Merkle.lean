import Verif.Gadgets.MerkleMPC
import Verif.Props.Poseidon2

/-!
# Properties C74 and C75: Merkle trees

`merkleRoot h arity d leaves` (`Verif/Spec/Merkle.lean`) is the root of the tree of depth `d`, defined from the root
downwards; `spongeHash` and `compressionHash` are the two ways to hash a list with Poseidon2.  `pathRoot` is the root
that a path leads to, `pathIndex` the index it stands for, and `Collision` the existence of two lists with the same
hash.
-/

namespace Verif.Props

open PartyID Verif.Poseidon2 Verif.Merkle
open Verif.Shamir hiding orPanic

variable {n : Nat} {F R M : Type} {A d : Nat}

/-! ## C74 -/

section

variable [CommRing F] {p : Params F}

/-- C74: the root in the clear, sponge mode. -/
theorem C74_sponge (hp : p.WF) (hA : 2 ≤ A) (hAt : A < p.t) (hd : 0 < d) {v : List F} (hv : v.length = A ^ d) :
    merkleSponge p A v = some (merkleRoot (spongeHash p) A d v) := by
  obtain ⟨d, rfl⟩ : ∃ k, d = k + 1 := ⟨d - 1, by omega⟩
  obtain ⟨r, h1, h2⟩ := treeLoop_spec hp (isBlock_sponge hp hAt.le) hA hAt.le hv (layout_pad (by omega) hAt.le hv)
  rw [merkleSponge, if_pos hAt, hv, checkLen_pow hA, h1]
  exact h2

/-- C74: the root in the clear, compression mode. -/
theorem C74_compression (hp : p.WF) (hA : 2 ≤ A) (hAt : A ≤ p.t) (hd : 0 < d ∨ p.t = A) {v : List F}
    (hv : v.length = A ^ d) : merkleCompression p A v = some (merkleRoot (compressionHash p) A d v) := by
  obtain ⟨r, h1, h2⟩ := treeLoop_spec hp (isBlock_compression hp (by omega) hAt) hA hAt hv
    (layout_padded (by omega) hAt hv hd)
  rw [merkleCompression, if_pos hAt, hv, checkLen_pow hA]
  simp only [Option.bind_eq_bind, Option.bind_some]
  rw [h1]
  exact h2

omit [CommRing F] in
theorem checkLen_none {v : List F} (h : A < 2 ∨ ∀ d, v.length ≠ A ^ d) : checkLen A v.length = none := by
  rw [checkLen, if_neg]
  rintro ⟨h1, h2, h3⟩
  rcases h with h | h
  · omega
  · exact h _ h3

/-- C74: other numbers of leaves, and arities that do not fit, are rejected. -/
theorem C74_reject {v : List F} (h : A < 2 ∨ ∀ d, v.length ≠ A ^ d) :
    merkleSponge p A v = none ∧ merkleCompression p A v = none := by
  rw [merkleSponge, merkleCompression, checkLen_none h]
  exact ⟨by split <;> rfl, by split <;> rfl⟩

/-- C74: an arity that does not fit into the state is rejected. -/
theorem C74_reject_arity {v : List F} :
    (p.t ≤ A → merkleSponge p A v = none) ∧ (p.t < A → merkleCompression p A v = none) := by
  refine ⟨fun h => ?_, fun h => ?_⟩
  · rw [merkleSponge, if_neg (by omega)]
  · rw [merkleCompression, if_neg (by omega)]

/-- C74: a single leaf passes the check of the length, but there is no root: the call panics (the padded vector is
empty).  Compression mode is different only if the arity fills the state; then the root is the leaf. -/
theorem C74_single_leaf (hA : 2 ≤ A) (x : F) :
    merkleSponge p A [x] = none ∧ (p.t ≠ A → merkleCompression p A [x] = none) ∧
      (p.t = A → merkleCompression p A [x] = some x) := by
  have hc : chunksExact A [x] = [] := by
    rw [chunksExact]
    simp
    omega
  have h1 : ∀ block : List F → List F, ∀ l : List F,
      treeLoop id (plainLayer p block) 0 p.t A 1 (l, ()) = some (l, ()) := by
    intro block l
    rw [treeLoop, dif_neg (by simp)]
    rfl
  have h2 := checkLen_pow (d := 0) hA
  refine ⟨?_, fun ht => ?_, fun ht => ?_⟩
  · rw [merkleSponge]
    split
    · simp only [List.length_cons, List.length_nil, Nat.zero_add]
      rw [pow_zero] at h2
      simp [h2, h1, pad, hc]
    · rfl
  · rw [merkleCompression]
    split
    · simp only [List.length_cons, List.length_nil, Nat.zero_add]
      rw [pow_zero] at h2
      simp [h2, h1, pad, hc, ht]
    · rfl
  · rw [merkleCompression, if_pos (by omega)]
    simp only [List.length_cons, List.length_nil, Nat.zero_add]
    rw [pow_zero] at h2
    subst ht
    simp [h2, h1]

end

section

variable {ty : A2BType} {st : PartyID → Rep3State R} [Field F] [Sample R F] [Codec M (List F)] {p : Params F}

/-- C74: on replicated shares, sponge mode. -/
theorem C74_rep3_sponge (hp : p.WF) (h5 : p.d = 5) (hA : 2 ≤ A) (hAt : A < p.t) (hd : 0 < d)
    {x : PartyID → List (Share F)} {v : List F} (hx : IsShares x v) (hv : v.length = A ^ d) (hst : Corr ty st) :
    Ensures (M := M) (fun i => merkleSpongeRep3 p A (x i)) st (fun r st' =>
      IsShare r (merkleRoot (spongeHash p) A d v) ∧ Corr ty st') :=
  (spec_merkleSpongeRep3 hp h5 hA hAt hd hx hv hst).ensures

/-- C74: on replicated shares, compression mode. -/
theorem C74_rep3_compression (hp : p.WF) (h5 : p.d = 5) (hA : 2 ≤ A) (hAt : A ≤ p.t) (hd : 0 < d ∨ p.t = A)
    {x : PartyID → List (Share F)} {v : List F} (hx : IsShares x v) (hv : v.length = A ^ d) (hst : Corr ty st) :
    Ensures (M := M) (fun i => merkleCompressionRep3 p A (x i)) st (fun r st' =>
      IsShare r (merkleRoot (compressionHash p) A d v) ∧ Corr ty st') :=
  (spec_merkleCompressionRep3 hp h5 hA hAt hd hx hv hst).ensures

/-- C74: on replicated shares, other numbers of leaves make all parties panic. -/
theorem C74_rep3_reject {x : PartyID → List (Share F)} {v : List F} (hx : IsShares x v)
    (h : A < 2 ∨ ∀ d, v.length ≠ A ^ d) :
    EnsuresE (M := M) (fun i => merkleSpongeRep3 p A (x i)) st (fun r => ∃ msg, ∀ i, r i = .error (.panic msg)) ∧
    EnsuresE (M := M) (fun i => merkleCompressionRep3 p A (x i)) st
      (fun r => ∃ msg, ∀ i, r i = .error (.panic msg)) := by
  have hc : ∀ i, checkLen A (x i).length = none := fun i => by
    rw [Cols.length (P := IsShare) hx i, checkLen_none h]
  constructor
  · simp only [merkleSpongeRep3, hc, orPanic]
    split
    · exact (SpecE.bindPanic specE_panic).ensures
    · exact specE_panic.ensures
  · simp only [merkleCompressionRep3, hc, orPanic]
    split
    · exact (SpecE.bindPanic specE_panic).ensures
    · exact specE_panic.ensures

end

section

variable [Field F] [Sample R F] [Codec M F] [Codec M (List F)] {t : Nat} {st : Fin n → ShamirState n R F}
  {p : Params F}

/-- C74: on Shamir shares, sponge mode. -/
theorem C74_shamir_sponge (hp : p.WF) (h5 : p.d = 5) (hA : 2 ≤ A) (hAt : A < p.t) (hd : 0 < d)
    {x : Fin n → List F} {v : List F} (hx : IsShamirs F t x v) (hv : v.length = A ^ d) (hst : ShCorr t st) :
    Ensures (M := M) (fun i => merkleSpongeShamir p A (x i)) st (fun r st' =>
      IsShamir F t r (merkleRoot (spongeHash p) A d v) ∧ ShCorr t st') :=
  (spec_merkleSpongeShamir hp h5 hA hAt hd hx hv hst).ensures

/-- C74: on Shamir shares, compression mode. -/
theorem C74_shamir_compression (hp : p.WF) (h5 : p.d = 5) (hA : 2 ≤ A) (hAt : A ≤ p.t) (hd : 0 < d ∨ p.t = A)
    {x : Fin n → List F} {v : List F} (hx : IsShamirs F t x v) (hv : v.length = A ^ d) (hst : ShCorr t st) :
    Ensures (M := M) (fun i => merkleCompressionShamir p A (x i)) st (fun r st' =>
      IsShamir F t r (merkleRoot (compressionHash p) A d v) ∧ ShCorr t st') :=
  (spec_merkleCompressionShamir hp h5 hA hAt hd hx hv hst).ensures

/-- C74: on Shamir shares, other numbers of leaves make all parties panic. -/
theorem C74_shamir_reject {x : Fin n → List F} {v : List F} (hx : IsShamirs F t x v)
    (h : A < 2 ∨ ∀ d, v.length ≠ A ^ d) :
    EnsuresE (M := M) (fun i => merkleSpongeShamir p A (x i)) st (fun r => ∃ msg, ∀ i, r i = .error (.panic msg)) ∧
    EnsuresE (M := M) (fun i => merkleCompressionShamir p A (x i)) st
      (fun r => ∃ msg, ∀ i, r i = .error (.panic msg)) := by
  have hc : ∀ i, checkLen A (x i).length = none := fun i => by
    rw [Cols.length (P := IsShamir (V := F) F t) hx i, checkLen_none h]
  constructor
  · simp only [merkleSpongeShamir, hc, orPanic]
    split
    · exact (SpecE.bindPanic specE_panic).ensures
    · exact specE_panic.ensures
  · simp only [merkleCompressionShamir, hc, orPanic]
    split
    · exact (SpecE.bindPanic specE_panic).ensures
    · exact specE_panic.ensures

end

/-! ### Cases that meet the hypotheses -/

example : merkleCompression Demo.poseidon 2 [3, 5, 5, 1] =
    some (merkleRoot (compressionHash Demo.poseidon) 2 2 [3, 5, 5, 1]) :=
  C74_compression Demo.poseidon_wf (le_refl _) (le_refl _) (.inl (by decide)) rfl
example : merkleSponge Demo.poseidon4 2 [3, 5, 5, 1] =
    some (merkleRoot (spongeHash Demo.poseidon4) 2 2 [3, 5, 5, 1]) :=
  C74_sponge Demo.poseidon4_wf (le_refl _) (by decide) (by decide) rfl
example : merkleSponge Demo.poseidon4 3 [1, 2, 3, 4, 5, 6, 0, 1, 2] =
    some (merkleRoot (spongeHash Demo.poseidon4) 3 2 [1, 2, 3, 4, 5, 6, 0, 1, 2]) :=
  C74_sponge Demo.poseidon4_wf (by decide) (by decide) (by decide) rfl

theorem _root_.Verif.Demo.three_ne_pow : ∀ d, 3 ≠ 2 ^ d := by
  intro d h
  cases d with
  | zero => simp at h
  | succ d => rw [pow_succ] at h; omega

example : merkleSponge Demo.poseidon4 2 [3, 5, 5] = none ∧ merkleCompression Demo.poseidon4 2 [3, 5, 5] = none :=
  C74_reject (.inr Demo.three_ne_pow)
example : merkleSponge Demo.poseidon 2 [3, 5] = none := C74_reject_arity.1 (le_refl _)
example : merkleSponge Demo.poseidon4 2 [3] = none := (C74_single_leaf (le_refl _) _).1

theorem _root_.Verif.Demo.isShares_3551 :
    IsShares (fun i => [Demo.three7 i, Demo.five7 i, Demo.five7 i, Demo.one7 i]) [(3 : Demo.F7), 5, 5, 1] :=
  Cols.append (P := IsShare) Demo.isShares_35 Demo.isShares_51

example : Ensures (M := Demo.Msg) (fun i => merkleSpongeRep3 Demo.poseidon4 2
      [Demo.three7 i, Demo.five7 i, Demo.five7 i, Demo.one7 i]) Demo.states (fun r st' =>
    IsShare r (merkleRoot (spongeHash Demo.poseidon4) 2 2 [3, 5, 5, 1]) ∧ Corr .direct st') :=
  C74_rep3_sponge Demo.poseidon4_wf rfl (le_refl _) (by decide) (by decide) Demo.isShares_3551 rfl Demo.corr_states
example : Ensures (M := Demo.Msg) (fun i => merkleCompressionRep3 Demo.poseidon 2
      [Demo.three7 i, Demo.five7 i, Demo.five7 i, Demo.one7 i]) Demo.states (fun r st' =>
    IsShare r (merkleRoot (compressionHash Demo.poseidon) 2 2 [3, 5, 5, 1]) ∧ Corr .direct st') :=
  C74_rep3_compression Demo.poseidon_wf rfl (le_refl _) (le_refl _) (.inl (by decide)) Demo.isShares_3551 rfl
    Demo.corr_states
example : EnsuresE (M := Demo.Msg) (fun i => merkleSpongeRep3 Demo.poseidon4 2
      [Demo.three7 i, Demo.five7 i, Demo.five7 i]) Demo.states (fun r => ∃ msg, ∀ i, r i = .error (.panic msg)) :=
  (C74_rep3_reject (v := [(3 : Demo.F7), 5, 5])
    (Cols.append (P := IsShare) Demo.isShares_35 (Cols.cons Demo.isShare_five7 Cols.nil))
    (.inr Demo.three_ne_pow)).1

theorem _root_.Verif.Demo.isShamirs_3434 :
    IsShamirs Demo.F7 1 (fun i => [Demo.sh3 i, Demo.sh4 i, Demo.sh3 i, Demo.sh4 i]) [(3 : Demo.F7), 4, 3, 4] :=
  Cols.append (P := IsShamir (V := Demo.F7) Demo.F7 1) Demo.isShamirs_34 Demo.isShamirs_34

example : ∃ st : Fin 3 → ShamirState 3 Nat Demo.F7, ShCorr 1 st ∧
    Ensures (M := Demo.Msg) (fun i => merkleSpongeShamir Demo.poseidon4 2
        [Demo.sh3 i, Demo.sh4 i, Demo.sh3 i, Demo.sh4 i]) st (fun r st' =>
      IsShamir Demo.F7 1 r (merkleRoot (spongeHash Demo.poseidon4) 2 2 [(3 : Demo.F7), 4, 3, 4]) ∧ ShCorr 1 st') ∧
    Ensures (M := Demo.Msg) (fun i => merkleCompressionShamir Demo.poseidon 2
        [Demo.sh3 i, Demo.sh4 i, Demo.sh3 i, Demo.sh4 i]) st (fun r st' =>
      IsShamir Demo.F7 1 r (merkleRoot (compressionHash Demo.poseidon) 2 2 [(3 : Demo.F7), 4, 3, 4]) ∧
        ShCorr 1 st') ∧
    EnsuresE (M := Demo.Msg) (fun i => merkleCompressionShamir Demo.poseidon 2
        [Demo.sh3 i, Demo.sh4 i, Demo.sh3 i]) st (fun r => ∃ msg, ∀ i, r i = .error (.panic msg)) :=
  Demo.shamir_states.imp fun _ h => ⟨h,
    C74_shamir_sponge Demo.poseidon4_wf rfl (le_refl _) (by decide) (by decide) Demo.isShamirs_3434 rfl h,
    C74_shamir_compression Demo.poseidon_wf rfl (le_refl _) (le_refl _) (.inl (by decide)) Demo.isShamirs_3434
      rfl h,
    (C74_shamir_reject (v := [(3 : Demo.F7), 4, 3]) (Cols.append (P := IsShamir (V := Demo.F7) Demo.F7 1)
      Demo.isShamirs_34 (Cols.cons Demo.isShamir_sh3 Cols.nil)) (.inr Demo.three_ne_pow)).2⟩

/-! ## C75 -/

section

variable [CommRing F] [DecidableEq F] {p : Params F}

/-- C75: for every leaf, the tree with witness gives the same root as the tree without, and a witness that
belongs to the index of the leaf and is accepted (sponge mode). -/
theorem C75_witness_sponge (hp : p.WF) (hA : 2 ≤ A) (hAt : A < p.t) (hd : 0 < d) {v : List F}
    (hv : v.length = A ^ d) {i : Nat} {x : F} (hx : v[i]? = some x) :
    ∃ w, merkleSpongeWithWitness p A v i = some (merkleRoot (spongeHash p) A d v, w) ∧
      w.length = d ∧ PathArity A w ∧ pathIndex A w = i ∧
      verifySponge p (merkleRoot (spongeHash p) A d v) x w = some true := by
  obtain ⟨d, rfl⟩ : ∃ k, d = k + 1 := ⟨d - 1, by omega⟩
  have hi : i < A ^ (d + 1) := by rw [← hv]; exact (List.getElem?_eq_some_iff.mp hx).1
  have hb := isBlock_sponge hp hAt.le
  obtain ⟨r, h1, h2⟩ := witnessLoop_spec hp hb hA hAt.le hi hv (layout_pad (by omega) hAt.le hv) []
  obtain ⟨g1, g2, g3, g4⟩ := pathOf_spec (H := spongeHash p) (by omega) hi hv hx
  refine ⟨pathOf (spongeHash p) A (d + 1) v i, ?_, g3, g2, g4, ?_⟩
  · rw [merkleSpongeWithWitness, if_pos hAt, hv, checkLen_pow hA, h1]
    cases r with
    | nil => simp at h2
    | cons a r =>
      simp only [List.head?_cons, Option.some.injEq] at h2
      simp [firstWith, h2]
  · cases hw : pathOf (spongeHash p) A (d + 1) v i with
    | nil => rw [hw] at g3; simp at g3
    | cons w ws =>
      rw [hw] at g1 g2
      have hwA := (g2 w (by simp)).1
      rw [verifySponge, hwA, if_pos hAt, pathLoop_ok hp hb hAt.le _ _ g2, g1]
      simp

/-- C75: the same in compression mode. -/
theorem C75_witness_compression (hp : p.WF) (hA : 2 ≤ A) (hAt : A ≤ p.t) (hd : 0 < d) {v : List F}
    (hv : v.length = A ^ d) {i : Nat} {x : F} (hx : v[i]? = some x) :
    ∃ w, merkleCompressionWithWitness p A v i = some (merkleRoot (compressionHash p) A d v, w) ∧
      w.length = d ∧ PathArity A w ∧ pathIndex A w = i ∧
      verifyCompression p (merkleRoot (compressionHash p) A d v) x w = some true := by
  have hi : i < A ^ d := by rw [← hv]; exact (List.getElem?_eq_some_iff.mp hx).1
  have hb := isBlock_compression hp (by omega : 0 < A) hAt
  obtain ⟨r, h1, h2⟩ := witnessLoop_spec hp hb hA hAt hi hv (layout_padded (by omega) hAt hv (.inl hd)) []
  obtain ⟨g1, g2, g3, g4⟩ := pathOf_spec (H := compressionHash p) (by omega) hi hv hx
  refine ⟨pathOf (compressionHash p) A d v i, ?_, g3, g2, g4, ?_⟩
  · rw [merkleCompressionWithWitness, if_pos hAt, hv, checkLen_pow hA]
    simp only [Option.bind_eq_bind, Option.bind_some]
    rw [h1]
    cases r with
    | nil => simp at h2
    | cons a r =>
      simp only [List.head?_cons, Option.some.injEq] at h2
      simp [firstWith, h2]
  · cases hw : pathOf (compressionHash p) A d v i with
    | nil => rw [hw] at g3; simp at g3; omega
    | cons w ws =>
      rw [hw] at g1 g2
      have hwA := (g2 w (by simp)).1
      rw [verifyCompression, hwA, if_pos hAt, pathLoop_ok hp hb hAt _ _ g2, g1]
      simp

theorem pathLoop_iff {block : List F → List F} {H : List F → F} (hp : p.WF) (hb : IsBlock p A block H) (hA : 0 < A)
    (hAt : A ≤ p.t) (root x : F) (ws : List (WitnessElement F)) :
    ∃ b, pathLoop p block A root x ws = some b ∧ (b = true ↔ PathArity A ws ∧ root = pathRoot H x ws) := by
  by_cases h : PathArity A ws
  · exact ⟨_, pathLoop_ok hp hb hAt root x h, by simp [h]⟩
  · exact ⟨_, pathLoop_bad hp hb hA hAt root x h, by simp [h]⟩

/-- C75: verification accepts exactly the paths that lead to the root and whose nodes all have as many children as
the first (sponge mode).  An empty path, or one whose arity does not fit, makes it panic. -/
theorem C75_verify_sponge (hp : p.WF) (root x : F) (w : WitnessElement F) (ws : List (WitnessElement F)) :
    verifySponge p root x [] = none ∧
    (p.t ≤ w.other.length + 1 → verifySponge p root x (w :: ws) = none) ∧
    (w.other.length + 1 < p.t → ∃ b, verifySponge p root x (w :: ws) = some b ∧
      (b = true ↔ PathArity (w.other.length + 1) (w :: ws) ∧ root = pathRoot (spongeHash p) x (w :: ws))) := by
  refine ⟨rfl, fun h => ?_, fun h => ?_⟩
  · rw [verifySponge, if_neg (by omega)]
  · rw [verifySponge, if_pos h]
    exact pathLoop_iff hp (isBlock_sponge hp h.le) (by omega) h.le _ _ _

/-- C75: the same in compression mode. -/
theorem C75_verify_compression (hp : p.WF) (root x : F) (w : WitnessElement F) (ws : List (WitnessElement F)) :
    verifyCompression p root x [] = none ∧
    (p.t < w.other.length + 1 → verifyCompression p root x (w :: ws) = none) ∧
    (w.other.length + 1 ≤ p.t → ∃ b, verifyCompression p root x (w :: ws) = some b ∧
      (b = true ↔ PathArity (w.other.length + 1) (w :: ws) ∧
        root = pathRoot (compressionHash p) x (w :: ws))) := by
  refine ⟨rfl, fun h => ?_, fun h => ?_⟩
  · rw [verifyCompression, if_neg (by omega)]
  · rw [verifyCompression, if_pos h]
    exact pathLoop_iff hp (isBlock_compression hp (by omega) h) (by omega) h _ _ _

/-- C75: an accepted path of the depth and the arity of the tree shows that the value is the leaf at the index
the path stands for, unless it gives a collision of the hash (sponge mode). -/
theorem C75_sound_sponge (hp : p.WF) (hA : 0 < A) {v : List F} (hv : v.length = A ^ d) {x : F}
    {ws : List (WitnessElement F)} (hw : ∀ w ∈ ws.head?, w.other.length + 1 = A) (hd : ws.length = d)
    (h : verifySponge p (merkleRoot (spongeHash p) A d v) x ws = some true) :
    v[pathIndex A ws]? = some x ∨ Collision (spongeHash p) A := by
  match ws with
  | [] => simp [verifySponge] at h
  | w :: ws =>
    have hwA := hw w (by simp)
    obtain ⟨-, h1, h2⟩ := C75_verify_sponge hp (merkleRoot (spongeHash p) A d v) x w ws
    rcases Nat.lt_or_ge (w.other.length + 1) p.t with hlt | hge
    · obtain ⟨b, hb1, hb2⟩ := h2 hlt
      rw [h] at hb1
      obtain ⟨k1, k2⟩ := hb2.mp (Option.some.inj hb1).symm
      rw [hwA] at k1
      exact path_sound hA hv k1 hd k2.symm
    · rw [h1 hge] at h
      cases h

/-- C75: the same in compression mode. -/
theorem C75_sound_compression (hp : p.WF) (hA : 0 < A) {v : List F} (hv : v.length = A ^ d) {x : F}
    {ws : List (WitnessElement F)} (hw : ∀ w ∈ ws.head?, w.other.length + 1 = A) (hd : ws.length = d)
    (h : verifyCompression p (merkleRoot (compressionHash p) A d v) x ws = some true) :
    v[pathIndex A ws]? = some x ∨ Collision (compressionHash p) A := by
  match ws with
  | [] => simp [verifyCompression] at h
  | w :: ws =>
    have hwA := hw w (by simp)
    obtain ⟨-, h1, h2⟩ := C75_verify_compression hp (merkleRoot (compressionHash p) A d v) x w ws
    rcases Nat.lt_or_ge p.t (w.other.length + 1) with hlt | hge
    · rw [h1 hlt] at h
      cases h
    · obtain ⟨b, hb1, hb2⟩ := h2 hge
      rw [h] at hb1
      obtain ⟨k1, k2⟩ := hb2.mp (Option.some.inj hb1).symm
      rw [hwA] at k1
      exact path_sound hA hv k1 hd k2.symm

/-- C75: the depth has to be checked by the caller: in every tree of depth two or more, a node above the leaves is
accepted with a shorter path (sponge mode). -/
theorem C75_inner_node_accepted (hp : p.WF) (hA : 2 ≤ A) (hAt : A < p.t) {v : List F}
    (hv : v.length = A ^ (d + 2)) :
    ∃ ws, ws.length = d + 1 ∧
      verifySponge p (merkleRoot (spongeHash p) A (d + 2) v) (spongeHash p (v.take A)) ws = some true := by
  have hlay := length_layer (h := spongeHash p) (A := A) (m := A ^ (d + 1)) (by omega) (l := v)
    (by rw [hv, pow_succ'])
  obtain ⟨ls, g1, g2, g3⟩ := exists_chunks (A := A) (m := A ^ (d + 1)) (l := v) (by rw [hv, pow_succ'])
  have hpos : 0 < A ^ (d + 1) := Nat.pow_pos (by omega)
  have hx : (layer (spongeHash p) A v)[0]? = some (spongeHash p (v.take A)) := by
    cases ls with
    | nil => simp at g1; omega
    | cons c ls =>
      rw [g3, layer_flatten (by omega) g2]
      have := g2 c (by simp)
      simp [List.take_append_of_le_length (by omega : A ≤ c.length), List.take_of_length_le (by omega : c.length ≤ A)]
  obtain ⟨w, -, h1, -, -, h2⟩ := C75_witness_sponge hp hA hAt (Nat.succ_pos d) hlay hx
  refine ⟨w, h1, ?_⟩
  rw [merkleRoot_layer (by omega) (d + 1) hv]
  exact h2

end

/-! ### Cases that meet the hypotheses -/

example : ∃ w, merkleSpongeWithWitness Demo.poseidon4 2 [3, 5, 5, 1] 3 =
      some (merkleRoot (spongeHash Demo.poseidon4) 2 2 [3, 5, 5, 1], w) ∧
    w.length = 2 ∧ PathArity 2 w ∧ pathIndex 2 w = 3 ∧
    verifySponge Demo.poseidon4 (merkleRoot (spongeHash Demo.poseidon4) 2 2 [3, 5, 5, 1]) 1 w = some true :=
  C75_witness_sponge Demo.poseidon4_wf (le_refl _) (by decide) (by decide) rfl rfl
example : ∃ w, merkleCompressionWithWitness Demo.poseidon 2 [3, 5, 5, 1] 1 =
      some (merkleRoot (compressionHash Demo.poseidon) 2 2 [3, 5, 5, 1], w) ∧
    w.length = 2 ∧ PathArity 2 w ∧ pathIndex 2 w = 1 ∧
    verifyCompression Demo.poseidon (merkleRoot (compressionHash Demo.poseidon) 2 2 [3, 5, 5, 1]) 5 w = some true :=
  C75_witness_compression Demo.poseidon_wf (le_refl _) (le_refl _) (by decide) rfl rfl
example : verifySponge Demo.poseidon4 3 3 ([⟨[5, 1, 2], 1⟩] : List (WitnessElement Demo.F7)) = none :=
  (C75_verify_sponge Demo.poseidon4_wf 3 3 _ _).2.1 (by decide)
example : ∃ b, verifySponge Demo.poseidon4 3 3 ([⟨[5], 1⟩, ⟨[1, 2], 0⟩] : List (WitnessElement Demo.F7)) = some b ∧
    (b = true ↔ PathArity 2 [⟨[(5 : Demo.F7)], 1⟩, ⟨[1, 2], 0⟩] ∧
      3 = pathRoot (spongeHash Demo.poseidon4) 3 [⟨[5], 1⟩, ⟨[1, 2], 0⟩]) :=
  (C75_verify_sponge Demo.poseidon4_wf 3 3 ⟨[5], 1⟩ [⟨[1, 2], 0⟩]).2.2 (by decide)
example : ∃ b, verifyCompression Demo.poseidon 3 3 ([⟨[5], 1⟩] : List (WitnessElement Demo.F7)) = some b ∧
    (b = true ↔ PathArity 2 [⟨[(5 : Demo.F7)], 1⟩] ∧ 3 = pathRoot (compressionHash Demo.poseidon) 3 [⟨[5], 1⟩]) :=
  (C75_verify_compression Demo.poseidon_wf 3 3 ⟨[5], 1⟩ []).2.2 (by decide)

/-- The hypotheses of the soundness theorems are met by the witness of the honest prover. -/
example : ∃ ws : List (WitnessElement Demo.F7), (∀ w ∈ ws.head?, w.other.length + 1 = 2) ∧ ws.length = 2 ∧
    verifySponge Demo.poseidon4 (merkleRoot (spongeHash Demo.poseidon4) 2 2 [3, 5, 5, 1]) 1 ws = some true := by
  obtain ⟨w, -, h1, h2, -, h3⟩ := C75_witness_sponge (d := 2) Demo.poseidon4_wf (le_refl 2) (by decide) (by decide)
    (v := [3, 5, 5, 1]) rfl (i := 3) rfl
  exact ⟨w, fun x hx => (h2 x (List.mem_of_mem_head? hx)).1, h1, h3⟩
example : ∃ ws : List (WitnessElement Demo.F7), (∀ w ∈ ws.head?, w.other.length + 1 = 2) ∧ ws.length = 2 ∧
    verifyCompression Demo.poseidon (merkleRoot (compressionHash Demo.poseidon) 2 2 [3, 5, 5, 1]) 1 ws =
      some true := by
  obtain ⟨w, -, h1, h2, -, h3⟩ := C75_witness_compression (d := 2) Demo.poseidon_wf (le_refl 2) (by decide)
    (by decide) (v := [3, 5, 5, 1]) rfl (i := 3) rfl
  exact ⟨w, fun x hx => (h2 x (List.mem_of_mem_head? hx)).1, h1, h3⟩
example : ∃ ws, ws.length = 1 ∧ verifySponge Demo.poseidon4
    (merkleRoot (spongeHash Demo.poseidon4) 2 2 [3, 5, 5, 1]) (spongeHash Demo.poseidon4 [3, 5]) ws = some true :=
  C75_inner_node_accepted (d := 0) Demo.poseidon4_wf (le_refl 2) (by decide) rfl

end Verif.Props
