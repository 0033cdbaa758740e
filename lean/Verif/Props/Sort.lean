import Verif.Ring.SortProtoLemmas
import Verif.Props.Demo

/-!
# C48, C49: oblivious permutations and the radix sort

`IsShares r vs` says that the parties' vectors `r` share the values `vs`; `EnsuresTwo p st₀ st₁ Q` says that in every
interleaving of all parties on both of their networks all calls return and the results satisfy `Q`.  A shared permutation
`ρ` of `n` positions is the shared vector of `ρ j + 1`, as in the code.  Sorting is specified by the stable sort
`List.mergeSort` of Lean's standard library.  The sort holds with either way of converting to binary shares; with garbled
circuits (`.yao`) the modulus must be odd.
-/

namespace Verif.Props

open PartyID Verif.Rep3 Verif.Rep3.Radix

section Permute

variable {R M J F : Type} {ty : A2BType} {n : Nat} {st st₀ st₁ : PartyID → Rep3State R} [∀ n, Sample R (Fin (n + 1))]
  [Sample R (BitVec 32)] [UintCodec M 32] [CommRing F] [Sample R F] [Codec M (List F)] [Codec J (List (Share F))]
  {x : PartyID → List (Share F)} {vs pub : List F} {f : Fin n → F}

/-- Shuffling private and public values with the joint permutation and un-shuffling gives the values back. -/
theorem C48_shuffle_unshuffle (hn : vs.length + pub.length < 2 ^ 32) (hx : IsShares x vs) (hst : Corr ty st) :
    Ensures (M := M) (fun i => do
        let pi ← randomPerm (vs.length + pub.length)
        let s ← shuffle pi (x i) pub
        unshuffle pi s) st
      (fun r _ => IsShares r (vs ++ pub)) := by
  obtain ⟨f, hf⟩ := list_eq_ofFn (n := vs.length + pub.length) (vs ++ pub) (by simp)
  refine (Spec.bind (spec_randomPerm (n := vs.length + pub.length) (fun _ => rfl) hn hst) ?_).ensures
  rintro pi st' ⟨⟨σ, hpi⟩, hst'⟩
  refine Spec.bind (spec_shuffle hpi hn hx hf hst') ?_
  rintro s st' ⟨hs, hst'⟩
  refine (spec_unshuffle hpi hn hs hst').mono fun r st h => ?_
  simpa [hf] using h.1

/-- A shuffled vector is a reordering of the inputs, and revealing with the same joint permutation shows the values in
the same order to all parties. -/
theorem C48_shuffle_reveal (hn : vs.length < 2 ^ 32) (hx : IsShares x vs) (hst : Corr ty st) :
    Ensures (M := M) (fun i => do
        let pi ← randomPerm vs.length
        let s ← shuffle pi (x i) []
        let o ← shuffleReveal pi (x i)
        pure (s, o)) st
      (fun r _ => ∃ us : List F, us.Perm vs ∧ IsShares (fun i => (r i).1) us ∧ ∀ i, (r i).2 = us) := by
  obtain ⟨n, hvn⟩ : ∃ n, vs.length = n := ⟨_, rfl⟩
  obtain ⟨f, rfl⟩ := list_eq_ofFn (n := n) vs hvn
  rw [hvn] at hn ⊢
  refine (Spec.bind (spec_randomPerm (n := n) (fun _ => rfl) hn hst) ?_).ensures
  rintro pi st' ⟨⟨σ, hpi⟩, hst'⟩
  refine Spec.bind (spec_shuffle hpi hn hx (List.append_nil _) hst') ?_
  rintro s st' ⟨hs, hst'⟩
  refine Spec.bind (spec_shuffleReveal hpi hn hx hst') ?_
  rintro _ st' ⟨rfl, hst'⟩
  refine Spec.pure ⟨_, ?_, hs, fun _ => rfl⟩
  exact Equiv.Perm.ofFn_comp_perm (((σ ID1).trans (σ ID2)).trans (σ ID0)) f

/-- Applying the inverse of a shared permutation puts the value at position `j` to position `ρ j`. -/
theorem C48_apply_inv {rho : PartyID → PermShare} (ρ : Equiv.Perm (Fin n)) (hn : n < 2 ^ 32)
    (hr : IsShares rho (List.ofFn fun j => BitVec.ofNat 32 (ρ j + 1)))
    (hx : IsShares x vs) (hf : vs ++ pub = List.ofFn fun j => f (ρ j)) (hst₀ : Corr ty st₀) (hst₁ : Corr ty st₁) :
    EnsuresTwo (M := M) (J := J) (fun i => applyInv (rho i) (x i) pub) st₀ st₁
      (fun r _ _ => IsShares r (List.ofFn f)) :=
  ((spec_applyInv hn hr hx hf hst₀ hst₁).mono fun r _ _ h => by simpa using h.1).ensures

/-- Composing shared permutations is exact: position `j` holds the entry of the second at `ρ j`. -/
theorem C48_compose {rho phi : PartyID → PermShare} (ρ φ : Equiv.Perm (Fin n)) (hn : n < 2 ^ 32)
    (hr : IsShares rho (List.ofFn fun j => BitVec.ofNat 32 (ρ j + 1)))
    (hp : IsShares phi (List.ofFn fun j => BitVec.ofNat 32 (φ j + 1))) (hst : Corr ty st) :
    Ensures (M := M) (fun i => compose (rho i) (phi i)) st
      (fun r _ => IsShares r (List.ofFn fun j => BitVec.ofNat 32 (φ (ρ j) + 1))) :=
  ((spec_compose hn hr hp hst).mono fun _ _ h => h.1).ensures

theorem before_bool {n : Nat} (b : Fin n → Bool) (i j : Fin n) :
    Before (fun j => (b j).toNat) i j ↔ (b i = false ∧ b j = true) ∨ (b i = b j ∧ i < j) := by
  unfold Before; beta_reduce
  cases b i <;> cases b j <;> simp

/-- The permutation that sorts bits: zeros first, both groups in their order, positions counted from one. -/
theorem C48_bit_perm {priv : PartyID → PermShare} {bs cs : List Bool}
    (hx : IsShares priv (bs.map fun b => if b then 1#32 else 0#32)) (hst : Corr ty st) :
    Ensures (M := M) (fun i => genBitPerm (priv i) (cs.map fun b => if b then 1#32 else 0#32)) st
      (fun r _ => ∃ ρ : Equiv.Perm (Fin (bs ++ cs).length),
        IsShares r (List.ofFn fun j => BitVec.ofNat 32 (ρ j + 1)) ∧
        ∀ i j : Fin (bs ++ cs).length, ρ i < ρ j ↔
          ((bs ++ cs)[i] = false ∧ (bs ++ cs)[j] = true) ∨ ((bs ++ cs)[i] = (bs ++ cs)[j] ∧ i < j)) := by
  refine ((spec_genBitPerm (n := (bs ++ cs).length) (b := fun j => (bs ++ cs)[j]) hx ?_ hst).mono fun r _ h => ?_).ensures
  · rw [← List.map_append]
    conv_lhs => rw [← List.ofFn_getElem (xs := bs ++ cs)]
    rw [map_ofFn']
    rfl
  · refine ⟨rankPerm fun j => ((bs ++ cs)[j]).toNat, by simpa [rankPerm_val] using h.1, fun i j => ?_⟩
    rw [rankPerm_lt_iff]
    exact before_bool _ i j

end Permute

section Sorting

variable {R M J : Type} {p w : Nat} {ty : A2BType} {st₀ st₁ : PartyID → Rep3State R} [∀ n, Sample R (Fin (n + 1))] [Sample R (BitVec 32)]
  [UintCodec M 32] [Sample R (ZMod p)] [Codec M (List (ZMod p))] [Sample R (BitVec w)] [UintCodec M w]
  [Codec J (List (Share (BitVec w)))] [Codec J (List (Share (BitVec 32)))] [Codec J (List (Share (ZMod p)))] [NeZero p]
  [Yao.YaoRng R] [Yao.YaoNet M]
  {x : PartyID → List (Share (ZMod p))} {vs pub : List (ZMod p)} {bitsize : Nat}

/-- `radix_sort_fields` is the stable sort of the private inputs followed by the public ones, by their lowest `bitsize`
bits. -/
theorem C49_radix_sort (hw : modBits p + 2 ≤ w) (ho : ty = .yao → p % 2 = 1) (hb : 1 ≤ bitsize) (hb' : bitsize ≤ w)
    (hn : vs.length + pub.length ≤ 2 ^ 32 - 1) (hx : IsShares x vs) (hst₀ : Corr ty st₀) (hst₁ : Corr ty st₁) :
    EnsuresTwo (M := M) (J := J) (fun i => radixSortFields w (x i) pub bitsize) st₀ st₁ (fun r _ _ =>
      IsShares r ((vs ++ pub).mergeSort fun a b => decide (a.val % 2 ^ bitsize ≤ b.val % 2 ^ bitsize))) :=
  ((spec_radixSortFields hw ho hb' hb hn hx hst₀ hst₁).mono fun _ _ _ h => h.1).ensures

/-- In particular the outputs are a permutation of the inputs, they are sorted, and equal keys keep their order: every
sorted sublist of the input is a sublist of the output. -/
theorem C49_sorted (hw : modBits p + 2 ≤ w) (ho : ty = .yao → p % 2 = 1) (hb : 1 ≤ bitsize) (hb' : bitsize ≤ w)
    (hn : vs.length + pub.length ≤ 2 ^ 32 - 1) (hx : IsShares x vs) (hst₀ : Corr ty st₀) (hst₁ : Corr ty st₁) :
    EnsuresTwo (M := M) (J := J) (fun i => radixSortFields w (x i) pub bitsize) st₀ st₁ (fun r _ _ =>
      ∃ us, IsShares r us ∧ us.Perm (vs ++ pub) ∧
        us.Pairwise (fun a b => a.val % 2 ^ bitsize ≤ b.val % 2 ^ bitsize) ∧
        ∀ l : List (ZMod p), l.Pairwise (fun a b => a.val % 2 ^ bitsize ≤ b.val % 2 ^ bitsize) → l.Sublist (vs ++ pub) → l.Sublist us) := by
  refine ((spec_radixSortFields hw ho hb' hb hn hx hst₀ hst₁).mono fun r _ _ h => ⟨_, h.1, List.mergeSort_perm _ _, ?_, ?_⟩).ensures
  · have := List.pairwise_mergeSort (le := fun a b : ZMod p => decide (a.val % 2 ^ bitsize ≤ b.val % 2 ^ bitsize))
      (by simp only [decide_eq_true_eq]; omega) (by simp only [Bool.or_eq_true, decide_eq_true_eq]; omega) (vs ++ pub)
    simpa using this
  · intro l hl hs
    exact List.sublist_mergeSort (le := fun a b : ZMod p => decide (a.val % 2 ^ bitsize ≤ b.val % 2 ^ bitsize))
      (by simp only [decide_eq_true_eq]; omega) (by simp only [Bool.or_eq_true, decide_eq_true_eq]; omega)
      (by simpa using hl) hs

/-- `radix_sort_fields_vec_by`: `ks` lists the keys in order, each marked as private (`true`) or public; every input vector
is sorted by these keys. -/
theorem C49_radix_sort_vec_by {ks : List (Bool × ZMod p)} {inputs : List (PartyID → List (Share (ZMod p)))}
    {ins : List (List (ZMod p))} (hw : modBits p + 2 ≤ w) (ho : ty = .yao → p % 2 = 1) (hb : 1 ≤ bitsize) (hb' : bitsize ≤ w)
    (hn : ks.length ≤ 2 ^ 32 - 1) (hx : IsShares x ((ks.filter fun k => k.1).map fun k => k.2))
    (hi : List.Forall₂ IsShares inputs ins) (hlen : ∀ l ∈ ins, l.length = ks.length)
    (hst₀ : Corr ty st₀) (hst₁ : Corr ty st₁) :
    EnsuresTwo (M := M) (J := J) (fun i => radixSortFieldsVecBy w (x i) ((ks.filter fun k => !k.1).map fun k => k.2)
        (ks.map fun k => k.1) (inputs.map (· i)) bitsize) st₀ st₁ (fun r _ _ =>
      ∃ rs : List (PartyID → List (Share (ZMod p))), (r = fun i => rs.map (· i)) ∧
        List.Forall₂ IsShares rs (ins.map fun l =>
          ((ks.zip l).mergeSort fun a b => decide (a.1.2.val % 2 ^ bitsize ≤ b.1.2.val % 2 ^ bitsize)).map fun a => a.2)) :=
  ((spec_radixSortFieldsVecBy hw ho hb' hb hn hx hi hlen hst₀ hst₁).mono fun _ _ _ h => h.1).ensures

/-- With bit size zero the private inputs count as equal, but the public ones are still ordered by their lowest bit. -/
theorem C49_bitsize_zero (hw : modBits p + 2 ≤ w) (ho : ty = .yao → p % 2 = 1) (hn : vs.length + pub.length ≤ 2 ^ 32 - 1) (hx : IsShares x vs)
    (hst₀ : Corr ty st₀) (hst₁ : Corr ty st₁) :
    EnsuresTwo (M := M) (J := J) (fun i => radixSortFields w (x i) pub 0) st₀ st₁ (fun r _ _ =>
      IsShares r ((((vs.map fun v : ZMod p => (v, 0)) ++ pub.map fun v : ZMod p => (v, v.val % 2)).mergeSort
        fun a b => decide (a.2 ≤ b.2)).map fun a : ZMod p × Nat => a.1)) :=
  ((spec_radixSortFields_zero hw ho hn hx hst₀ hst₁).mono fun _ _ _ h => h.1).ensures

/-- More inputs than the permutation ring can count are refused by all parties. -/
theorem C49_too_many (hn : vs.length + pub.length > 2 ^ 32 - 1) (hx : IsShares x vs) :
    FailsTwo (M := M) (J := J) (fun i => radixSortFields w (x i) pub bitsize) st₀ st₁
      (.err "Too many inputs for radix sort. Use a larger PermRing.") :=
  failsTwo fun i => by
    simp only [radixSortFields, Cols.length hx, if_pos hn]
    rfl

/-- A bit size above the width of the integers panics at all parties. -/
theorem C49_bitsize_too_large (hb : w < bitsize) (hn : vs.length + pub.length ≤ 2 ^ 32 - 1) (hx : IsShares x vs) :
    FailsTwo (M := M) (J := J) (fun i => radixSortFields w (x i) pub bitsize) st₀ st₁
      (.panic "mask width exceeds capacity") :=
  failsTwo fun i => by
    simp only [radixSortFields, Cols.length hx, if_neg (Nat.not_lt.2 hn), gt_iff_lt, genPerm, decompose, if_pos hb]
    rfl

end Sorting

/-! ### Concrete cases -/

namespace Demo

open Verif.Demo

instance : ∀ n, Sample Nat (Fin (n + 1)) := fun n => ⟨fun r => (Fin.ofNat (n + 1) r, r + 1)⟩

/-- Results of closures. -/
inductive Res where
  | b (w : Nat) (x : List (Share (BitVec w)))
  | f (x : List (Share F7))

instance {w : Nat} : Codec Res (List (Share (BitVec w))) :=
  ⟨.b w, fun | .b w' x => if h : w' = w then some (h ▸ x) else none | _ => none, fun _ => by simp⟩
instance : Codec Res (List (Share F7)) := ⟨.f, fun | .f x => some x | _ => none, fun _ => rfl⟩

/-- Shares of `5, 1` together with the public `3, 0` are sorted by two bits to `1, 5, 0 …`: the keys are `1, 1, 3, 0`. -/
example (t : A2BType) : EnsuresTwo (M := Msg) (J := Res) (fun i => radixSortFields 8 [five7 i, one7 i] [3, 0] 2)
    (statesOf t) (statesOf t)
    (fun r _ _ => IsShares r [0, 5, 1, 3]) := by
  have h := C49_radix_sort (M := Msg) (J := Res) (w := 8) (pub := [3, 0]) (bitsize := 2) (by decide) (fun _ => rfl) (by decide) (by decide)
    (by decide) isShares_51 (corr_statesOf t) (corr_statesOf t)
  have e : ([5, 1] ++ [3, 0] : List F7).mergeSort (fun a b => decide (a.val % 2 ^ 2 ≤ b.val % 2 ^ 2)) = [0, 5, 1, 3] := by
    simp (decide := true) [List.mergeSort, List.MergeSort.Internal.splitInTwo, List.merge]
  rwa [e] at h

example : EnsuresTwo (M := Msg) (J := Res) (fun i => radixSortFieldsVecBy 8 [five7 i, one7 i] [3] [true, false, true]
      ([fun i => [one7 i, three7 i, five7 i]].map (· i)) 3) states states
    (fun r _ _ => ∃ rs : List (PartyID → List (Share F7)), (r = fun i => rs.map (· i)) ∧
      List.Forall₂ IsShares rs [[5, 3, 1]]) := by
  have h := C49_radix_sort_vec_by (M := Msg) (J := Res) (w := 8) (bitsize := 3) (ks := [(true, 5), (false, 3), (true, 1)])
    (ins := [[1, 3, 5]]) (by decide) (fun _ => rfl) (by decide) (by decide) (by decide) isShares_51
    (.cons ⟨[one7, three7, five7], rfl, .cons isShare_one7 (.cons isShare_three7 (.cons isShare_five7 .nil))⟩ .nil) (by decide)
    corr_states corr_states
  have e : ([[1, 3, 5]].map fun l : List F7 => (([(true, (5 : F7)), (false, 3), (true, 1)].zip l).mergeSort
      fun a b => decide (a.1.2.val % 2 ^ 3 ≤ b.1.2.val % 2 ^ 3)).map fun a => a.2) = [[5, 3, 1]] := by
    simp (decide := true) [List.mergeSort, List.MergeSort.Internal.splitInTwo, List.merge]
  rwa [e] at h

/-- `[1, 0]` is not left as it is by a sort on no bits at all. -/
example : EnsuresTwo (M := Msg) (J := Res) (fun _ => radixSortFields 8 [] [(1 : F7), 0] 0) states states
    (fun r _ _ => IsShares r [0, 1]) := by
  have h := C49_bitsize_zero (M := Msg) (J := Res) (w := 8) (x := fun _ => []) (vs := []) (pub := [(1 : F7), 0]) (by decide) (fun _ => rfl)
    (by decide) isShares_nil corr_states corr_states
  have e : ((((([] : List F7).map fun v => (v, 0)) ++ [(1 : F7), 0].map fun v : F7 => (v, ZMod.val v % 2)).mergeSort
        fun a b => decide (a.2 ≤ b.2)).map fun a : F7 × Nat => a.1) = [0, 1] := by
    simp (decide := true) [List.mergeSort, List.MergeSort.Internal.splitInTwo, List.merge]
  rwa [e] at h

example : Ensures (M := Msg) (fun i => do
      let pi ← randomPerm 4
      let s ← shuffle pi [five7 i, one7 i] [3, 0]
      unshuffle pi s) states (fun r _ => IsShares r [5, 1, 3, 0]) :=
  C48_shuffle_unshuffle (vs := [5, 1]) (pub := [3, 0]) (by decide) isShares_51 corr_states

example : ∃ ρ : Equiv.Perm (Fin 3), ∃ rho : PartyID → PermShare, ρ 0 = 2 ∧
    IsShares rho (List.ofFn fun j => BitVec.ofNat 32 (ρ j + 1)) :=
  ⟨Equiv.swap 0 2, fun i => (List.ofFn fun j => BitVec.ofNat 32 (((Equiv.swap 0 2 : Equiv.Perm (Fin 3)) j : Nat) + 1)).map
    (promoteToTrivialShare i), by decide, by
    have := Cols.map (Q := IsShare) (f := fun i (v : BitVec 32) => promoteToTrivialShare i v) (g := id)
      (Lut.cols_const (P := fun (x : PartyID → BitVec 32) v => x = fun _ => v)
        (l := List.ofFn fun j => BitVec.ofNat 32 (((Equiv.swap 0 2 : Equiv.Perm (Fin 3)) j : Nat) + 1)) fun _ _ => rfl)
      (by rintro _ v rfl; exact IsShare.promote v)
    rwa [List.map_id] at this⟩

end Demo

end Verif.Props
