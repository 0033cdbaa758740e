import Verif.Gadgets.MerkleLemmas

/-!
# Merkle trees in the clear
-/

namespace Verif.Merkle

open Poseidon2

variable {F S α : Type}

/-! One step of the loop -/

/-- How a layer of `A ^ d` values lies in the vector. -/
def Layout (z : S) (t A : Nat) : Nat → List S → List S → Prop
  | 0, l, input => input.head? = l.head?
  | d + 1, l, input => t * A ^ d ≤ input.length ∧ input.take (t * A ^ d) = pad z t A l

theorem layout_step (z : S) {t A : Nat} (hA : 2 ≤ A) (hAt : A ≤ t) {d : Nat} {l out : List S}
    (hl : t * A ^ d ≤ l.length) (ho : heads z t (A ^ d) l = out) :
    ∃ l', compact z t A (A ^ d) l = some l' ∧ Layout z t A d out l' := by
  subst ho
  cases d with
  | zero =>
    refine ⟨l, by simpa using compact_one z hA l, ?_⟩
    cases l with
    | nil => simp at hl; omega
    | cons a l => simp [Layout, heads]
  | succ d =>
    have e : A ^ (d + 1) = A * A ^ d := pow_succ' _ _
    rw [e] at hl ⊢
    obtain ⟨l', h1, h2, h3⟩ := compact_spec z (by omega) hAt hl
    refine ⟨l', h1, ?_, h3⟩
    rw [h2]
    exact le_trans (Nat.mul_le_mul_left t (Nat.le_mul_of_pos_left _ (by omega))) hl

section Plain

variable [CommRing F]

/-- The block function computes the hash `H` of the `A` values in front. -/
def IsBlock (p : Params F) (A : Nat) (block : List F → List F) (H : List F → F) : Prop :=
  ∀ c, c.length = A → (block (padOne 0 p.t c)).length = p.t ∧ (block (padOne 0 p.t c)).headD 0 = H c

theorem length_poseidon2 {p : Params F} (hp : p.WF) {x : List F} (hx : x.length = p.t) :
    (poseidon2 p x).length = p.t := by
  have h1 : ∀ (rcs : List (List F)), (∀ rc ∈ rcs, rc.length = p.t) → ∀ y : List F, y.length = p.t →
      (rcs.foldl (externalStep p) y).length = p.t := by
    intro rcs h
    induction rcs with
    | nil => simp
    | cons rc rcs ih =>
      intro y hy
      refine ih (fun rc h' => h rc (by simp [h'])) _ ?_
      simp [externalStep, length_matVec, hy, h rc (by simp)]
  have h2 : ∀ (cs : List F) (y : List F), y.length = p.t → (cs.foldl (internalStep p) y).length = p.t := by
    intro cs
    induction cs with
    | nil => simp
    | cons c cs ih =>
      intro y hy
      refine ih _ ?_
      unfold internalStep
      rw [length_matVec]
      cases y <;> simpa using hy
  unfold poseidon2
  refine h1 _ (fun rc h => hp.constants rc (List.mem_of_mem_drop h)) _ (h2 _ _ (h1 _
    (fun rc h => hp.constants rc (List.mem_of_mem_take h)) _ ?_))
  rw [length_matVec, hx]

theorem isBlock_sponge {p : Params F} (hp : p.WF) {A : Nat} (hAt : A ≤ p.t) :
    IsBlock p A (spongeBlock p) (spongeHash p) := by
  intro c hc
  have hl : (padOne 0 p.t c).length = p.t := length_padOne 0 (by omega)
  rw [spongeBlock, permutationRounds_poseidon2 hp hl]
  exact ⟨length_poseidon2 hp hl, rfl⟩

theorem isBlock_compression {p : Params F} (hp : p.WF) {A : Nat} (hA : 0 < A) (hAt : A ≤ p.t) :
    IsBlock p A (compressionBlock p) (compressionHash p) := by
  intro c hc
  have hl : (padOne 0 p.t c).length = p.t := length_padOne 0 (by omega)
  rw [compressionBlock, permutationRounds_poseidon2 hp hl]
  refine ⟨by simp [length_poseidon2 hp hl], ?_⟩
  have h0 := length_poseidon2 hp hl
  have ht := t_pos hp
  have e : (padOne 0 p.t c).headD 0 = c.headD 0 := by
    cases c with
    | nil => simp at hc; omega
    | cons a c => rfl
  have e' : compressionHash p c = (poseidon2 p (padOne 0 p.t c)).headD 0 + c.headD 0 := rfl
  rw [e, e']
  cases hq : poseidon2 p (padOne 0 p.t c) with
  | nil => rw [hq] at h0; simp at h0; omega
  | cons a b => rfl

variable {p : Params F} {A : Nat} {block : List F → List F} {H : List F → F}

/-- One layer, in terms of the values. -/
theorem onChunks_heads (hb : IsBlock p A block H) (hA : 0 < A) (hAt : A ≤ p.t) {d : Nat} {l input : List F}
    (hl : l.length = A ^ (d + 1)) (h : Layout 0 p.t A (d + 1) l input) :
    heads 0 p.t (A ^ d) (onChunks block p.t (A ^ d) input) = layer H A l ∧
      p.t * A ^ d ≤ (onChunks block p.t (A ^ d) input).length := by
  obtain ⟨ls, h1, h2, rfl⟩ := exists_chunks (A := A) (m := A ^ d) (l := l) (by rw [hl, pow_succ'])
  have ht : 0 < p.t := by omega
  have hp1 : ∀ c ∈ ls.map (padOne 0 p.t), c.length = p.t := by
    intro u hu
    obtain ⟨c, hc, rfl⟩ := List.mem_map.mp hu
    exact length_padOne 0 (by rw [h2 c hc]; exact hAt)
  have hp2 : ∀ c ∈ (ls.map (padOne 0 p.t)).map block, c.length = p.t := by
    intro u hu
    simp only [List.map_map, List.mem_map] at hu
    obtain ⟨c, hc, rfl⟩ := hu
    exact (hb c (h2 c hc)).1
  rw [onChunks, h.2, pad_flatten 0 p.t hA h2, mapChunks_flatten ht hp1]
  have := heads_flatten 0 ht hp2 (input.drop (p.t * A ^ d))
  simp only [List.length_map, h1] at this
  rw [this, layer_flatten hA h2]
  refine ⟨?_, ?_⟩
  · simp only [List.map_map]
    exact List.map_congr_left fun c hc => (hb c (h2 c hc)).2
  · rw [List.length_append, length_flatten_const hp2]
    simp only [List.length_map, h1]
    rw [Nat.mul_comm]
    omega

/-! The witness -/

theorem filter_zipIdx (c : List α) (n j : Nat) :
    ((c.zipIdx n).filter fun e => e.2 ≠ n + j).map (·.1) = c.eraseIdx j := by
  induction c generalizing n j with
  | nil => simp
  | cons a c ih =>
    cases j with
    | zero =>
      have : ((c.zipIdx (n + 1)).filter fun e => e.2 ≠ n).map (·.1) = c := by
        rw [List.filter_eq_self.mpr]
        · simp
        · intro e he
          have := (List.mem_zipIdx he).1
          simp; omega
      simpa using this
    | succ j =>
      have := ih (n + 1) j
      rw [show n + 1 + j = n + (j + 1) by omega] at this
      simpa using this

theorem witnessOf_eq {t A d i : Nat} (hA : 0 < A) (hAt : A ≤ t) {ls : List (List F)} {input : List F}
    (hls : ls.length = A ^ d) (h2 : ∀ c ∈ ls, c.length = A) (h : Layout 0 t A (d + 1) ls.flatten input)
    {c : List F} (hc : ls[i / A]? = some c) : witnessOf t A i input = ⟨c.eraseIdx (i % A), i % A⟩ := by
  have hp1 : ∀ c ∈ ls.map (padOne 0 t), c.length = t := by
    intro u hu
    obtain ⟨c, hc, rfl⟩ := List.mem_map.mp hu
    exact length_padOne 0 (by rw [h2 c hc]; exact hAt)
  have hk : i / A < ls.length := (List.getElem?_eq_some_iff.mp hc).1
  have hcA : c.length = A := h2 c (List.mem_of_getElem? hc)
  have e : input = (ls.map (padOne (0 : F) t)).flatten ++ input.drop (t * A ^ d) := by
    rw [← pad_flatten 0 t hA h2, ← h.2, List.take_append_drop]
  have hlen := length_flatten_const hp1
  have e2 : (input.drop (i / A * t)).take A = c := by
    rw [e, List.drop_append_of_le_length (by
      rw [hlen, List.length_map]
      exact Nat.mul_le_mul_right t hk.le), drop_flatten hp1, ← List.map_drop,
      List.drop_eq_getElem_cons hk, (List.getElem?_eq_some_iff.mp hc).2]
    simp only [List.map_cons, List.flatten_cons, padOne, List.append_assoc]
    rw [← hcA, List.take_left]
  rw [witnessOf, e2]
  congr 1
  simpa using filter_zipIdx c 0 (i % A)

/-- The path of a leaf. -/
def pathOf (H : List F → F) (A : Nat) : Nat → List F → Nat → List (WitnessElement F)
  | 0, _, _ => []
  | d + 1, l, i =>
    ⟨((l.drop (i / A * A)).take A).eraseIdx (i % A), i % A⟩ :: pathOf H A d (layer H A l) (i / A)

theorem witnessLoop_spec (hp : p.WF) (hb : IsBlock p A block H) (hA : 2 ≤ A) (hAt : A ≤ p.t) {d i : Nat}
    (hi : i < A ^ d) {l input : List F} (hl : l.length = A ^ d) (h : Layout 0 p.t A d l input)
    (w : List (WitnessElement F)) :
    ∃ input', witnessLoop p block A (A ^ d) i input w = some (input', w ++ pathOf H A d l i) ∧
      input'.head? = some (merkleRoot H A d l) := by
  induction d generalizing i l input w with
  | zero =>
    refine ⟨input, ?_, ?_⟩
    · rw [witnessLoop, dif_neg (by simp)]; simp [pathOf]
    · match l, hl with
      | [a], _ => simpa [merkleRoot, Layout] using h
  | succ d ih =>
    have hpow : A ^ (d + 1) / A = A ^ d := by rw [pow_succ']; exact Nat.mul_div_cancel_left _ (by omega)
    obtain ⟨h1, h2⟩ := onChunks_heads hb (by omega) hAt hl h
    obtain ⟨l', h3, h4⟩ := layout_step 0 hA hAt h2 h1
    have hlay := length_layer (h := H) (A := A) (m := A ^ d) (by omega) (l := l) (by rw [hl, pow_succ'])
    have hi' : i / A < A ^ d := Nat.div_lt_of_lt_mul (by rw [← pow_succ']; exact hi)
    obtain ⟨ls, g1, g2, g3⟩ := exists_chunks (A := A) (m := A ^ d) (l := l) (by rw [hl, pow_succ'])
    have hw : witnessOf p.t A i input = ⟨((l.drop (i / A * A)).take A).eraseIdx (i % A), i % A⟩ := by
      have hk : i / A < ls.length := by omega
      subst g3
      rw [witnessOf_eq (by omega) hAt g1 g2 h (List.getElem?_eq_getElem hk), drop_flatten g2,
        List.drop_eq_getElem_cons hk, List.flatten_cons]
      have := g2 _ (List.getElem_mem hk)
      rw [List.take_append_of_le_length (by omega), List.take_of_length_le (by omega)]
    obtain ⟨input', h5, h6⟩ := ih hi' hlay h4 (w ++ [witnessOf p.t A i input])
    refine ⟨input', ?_, ?_⟩
    · rw [witnessLoop, dif_pos ⟨Nat.one_lt_pow (by omega) (by omega), by omega⟩, hpow]
      simp only [plainLayer, if_pos (show ValidSize p.t from hp.size), Option.bind_eq_bind, Option.bind_some,
        h3]
      rw [h5, hw]
      simp [pathOf]
    · rw [h6, merkleRoot_layer (by omega) d hl]

theorem treeLoop_spec (hp : p.WF) (hb : IsBlock p A block H) (hA : 2 ≤ A) (hAt : A ≤ p.t) {d : Nat}
    {l input : List F} (hl : l.length = A ^ d) (h : Layout 0 p.t A d l input) :
    ∃ input', treeLoop id (plainLayer p block) 0 p.t A (A ^ d) (input, ()) = some (input', ()) ∧
      input'.head? = some (merkleRoot H A d l) := by
  induction d generalizing l input with
  | zero =>
    refine ⟨input, ?_, ?_⟩
    · rw [treeLoop, dif_neg (by simp)]; rfl
    · match l, hl with
      | [a], _ => simpa [merkleRoot, Layout] using h
  | succ d ih =>
    have hpow : A ^ (d + 1) / A = A ^ d := by rw [pow_succ']; exact Nat.mul_div_cancel_left _ (by omega)
    obtain ⟨h1, h2⟩ := onChunks_heads hb (by omega) hAt hl h
    obtain ⟨l', h3, h4⟩ := layout_step 0 hA hAt h2 h1
    have hlay := length_layer (h := H) (A := A) (m := A ^ d) (by omega) (l := l) (by rw [hl, pow_succ'])
    obtain ⟨input', h5, h6⟩ := ih hlay h4
    refine ⟨input', ?_, ?_⟩
    · rw [treeLoop, dif_pos ⟨Nat.one_lt_pow (by omega) (by omega), by omega⟩, hpow]
      simp only [plainLayer, if_pos (show ValidSize p.t from hp.size), Option.bind_eq_bind, Option.bind_some,
        h3, id]
      exact h5
    · rw [h6, merkleRoot_layer (by omega) d hl]

theorem layout_pad {z : S} {t A d : Nat} (hA : 0 < A) (hAt : A ≤ t) {l : List S} (hl : l.length = A ^ (d + 1)) :
    Layout z t A (d + 1) l (pad z t A l) := by
  have := length_pad z hA hAt (m := A ^ d) (l := l) (by rw [hl, pow_succ'])
  exact ⟨by omega, by rw [List.take_of_length_le (by omega)]⟩

theorem layout_padded {z : S} {t A d : Nat} (hA : 0 < A) (hAt : A ≤ t) {l : List S} (hl : l.length = A ^ d)
    (hd : 0 < d ∨ t = A) : Layout z t A d l (if t = A then l else pad z t A l) := by
  cases d with
  | zero =>
    have ht : t = A := by omega
    simp [Layout, ht]
  | succ d =>
    have e : (if t = A then l else pad z t A l) = pad z t A l := by
      split
      · rename_i ht
        subst ht
        rw [pad_self z hA (m := t ^ d) (by rw [hl, pow_succ'])]
      · rfl
    rw [e]
    exact layout_pad hA hAt hl

/-! Paths -/

theorem pathState_eq {t A : Nat} (hAt : A ≤ t) (x : F) {w : WitnessElement F} (h1 : w.other.length + 1 = A)
    (h2 : w.position < A) : pathState t A x w = padOne 0 t (children w x) := by
  obtain ⟨o, j⟩ := w
  simp only at h1 h2
  have hlen : (children ⟨o, j⟩ x).length = A := by
    simp [children]; omega
  apply List.ext_getElem
  · simp [pathState, padOne, hlen]; omega
  · intro k hk1 hk2
    have hk : k < t := by simpa [pathState] using hk1
    apply Option.some.inj
    rw [← List.getElem?_eq_getElem, ← List.getElem?_eq_getElem, pathState, List.getElem?_map,
      List.getElem?_range hk, Option.map_some, padOne]
    by_cases hkA : k < A
    · rw [if_pos hkA, List.getElem?_append_left (by omega)]
      simp only [children]
      rcases Nat.lt_trichotomy k j with hkj | hkj | hkj
      · rw [if_pos hkj, List.getElem?_append_left (by simp; omega), List.getElem?_take_of_lt hkj,
          List.getD_eq_getElem?_getD, List.getElem?_eq_getElem (by omega)]
        rfl
      · subst hkj
        rw [if_neg (by omega), if_pos rfl, List.getElem?_append_right (by simp)]
        simp [Nat.min_eq_left (show k ≤ o.length by omega)]
      · rw [if_neg (by omega), if_neg (by omega), List.getElem?_append_right (by simp; omega),
          List.length_take, Nat.min_eq_left (by omega)]
        obtain ⟨r, rfl⟩ : ∃ r, k = j + r + 1 := ⟨k - j - 1, by omega⟩
        rw [show j + r + 1 - j = r + 1 by omega, List.getElem?_cons_succ, List.getElem?_drop,
          show j + r + 1 - 1 = j + r by omega, List.getD_eq_getElem?_getD,
          List.getElem?_eq_getElem (by omega)]
        rfl
    · rw [if_neg hkA, List.getElem?_append_right (by omega), List.getElem?_replicate, if_pos (by omega)]

theorem pathLoop_ok [DecidableEq F] (hp : p.WF) (hb : IsBlock p A block H) (hAt : A ≤ p.t) (root x : F)
    {ws : List (WitnessElement F)} (h : PathArity A ws) :
    pathLoop p block A root x ws = some (decide (root = pathRoot H x ws)) := by
  induction ws generalizing x with
  | nil => rfl
  | cons w ws ih =>
    obtain ⟨h1, h2⟩ := h w (by simp)
    obtain ⟨g1, g2⟩ := hb (children w x) (by simp [children]; omega)
    rw [pathLoop, if_neg (by omega), if_neg (by omega), if_pos (show ValidSize p.t from hp.size),
      pathState_eq hAt x h1 h2]
    have ht := t_pos hp
    cases hq : block (padOne 0 p.t (children w x)) with
    | nil => rw [hq] at g1; simp at g1; omega
    | cons a r =>
      rw [hq] at g2
      simp only [List.headD_cons] at g2
      simp only [pathRoot, g2]
      exact ih _ fun w hw => h w (by simp [hw])

theorem pathLoop_bad [DecidableEq F] (hp : p.WF) (hb : IsBlock p A block H) (hA : 0 < A) (hAt : A ≤ p.t)
    (root x : F) {ws : List (WitnessElement F)} (h : ¬ PathArity A ws) :
    pathLoop p block A root x ws = some false := by
  induction ws generalizing x with
  | nil => exact absurd (by simp [PathArity]) h
  | cons w ws ih =>
    rw [pathLoop]
    split
    · rfl
    · rename_i h1
      split
      · rfl
      · rename_i h2
        have h1' : w.other.length + 1 = A := by omega
        have h2' : w.position < A := by omega
        obtain ⟨g1, g2⟩ := hb (children w x) (by simp [children]; omega)
        rw [if_pos (show ValidSize p.t from hp.size), pathState_eq hAt x h1' h2']
        have ht := t_pos hp
        cases hq : block (padOne 0 p.t (children w x)) with
        | nil => rw [hq] at g1; simp at g1; omega
        | cons a r =>
          simp only
          refine ih _ fun hws => h ?_
          intro w' hw'
          rcases List.mem_cons.mp hw' with rfl | hw'
          · exact ⟨h1', h2'⟩
          · exact hws w' hw'

theorem children_erase {c : List F} {j : Nat} {x : F} (h : c[j]? = some x) :
    children ⟨c.eraseIdx j, j⟩ x = c := by
  obtain ⟨hj, hx⟩ := List.getElem?_eq_some_iff.mp h
  simp only [children, List.eraseIdx_eq_take_drop_succ]
  have hlen : (c.take j).length = j := by simp; omega
  rw [List.take_append_of_le_length (by omega), List.drop_append_of_le_length (by omega),
    List.take_of_length_le (by omega), List.drop_of_length_le (l := c.take j) (by omega), List.nil_append, ← hx,
    ← List.drop_eq_getElem_cons hj, List.take_append_drop]

theorem pathOf_spec (hA : 0 < A) {d i : Nat} (hi : i < A ^ d) {l : List F} (hl : l.length = A ^ d) {x : F}
    (hx : l[i]? = some x) :
    pathRoot H x (pathOf H A d l i) = merkleRoot H A d l ∧ PathArity A (pathOf H A d l i) ∧
      (pathOf H A d l i).length = d ∧ pathIndex A (pathOf H A d l i) = i := by
  induction d generalizing i l x with
  | zero =>
    match l, hl with
    | [a], _ =>
      have : i = 0 := by simpa using hi
      subst this
      simp only [List.getElem?_cons_zero, Option.some.injEq] at hx
      simp [pathOf, pathRoot, merkleRoot, PathArity, pathIndex, hx]
  | succ d ih =>
    have hi' : i / A < A ^ d := Nat.div_lt_of_lt_mul (by rw [← pow_succ']; exact hi)
    have hlay := length_layer (h := H) (A := A) (m := A ^ d) hA (l := l) (by rw [hl, pow_succ'])
    have hroot := merkleRoot_layer (h := H) hA d hl
    obtain ⟨ls, g1, g2, g3⟩ := exists_chunks (A := A) (m := A ^ d) (l := l) (by rw [hl, pow_succ'])
    have hk : i / A < ls.length := by omega
    have hcA := g2 _ (List.getElem_mem hk)
    have hmod := Nat.mod_lt i hA
    have hchunk : (l.drop (i / A * A)).take A = ls[i / A] := by
      rw [g3, drop_flatten g2, List.drop_eq_getElem_cons hk, List.flatten_cons,
        List.take_append_of_le_length (by omega), List.take_of_length_le (by omega)]
    have hxc : (ls[i / A])[i % A]? = some x := by
      rw [g3, getElem?_flatten hA g2, List.getElem?_eq_getElem hk] at hx
      exact hx
    have hnext : (layer H A l)[i / A]? = some (H ls[i / A]) := by
      rw [g3, layer_flatten hA g2, List.getElem?_map, List.getElem?_eq_getElem hk]
      rfl
    obtain ⟨k1, k2, k3, k4⟩ := ih hi' hlay hnext
    simp only [pathOf, hchunk]
    refine ⟨?_, ?_, by simp [k3], ?_⟩
    · rw [pathRoot, children_erase hxc, k1, hroot]
    · intro w hw
      rcases List.mem_cons.mp hw with rfl | hw
      · refine ⟨?_, hmod⟩
        simp only
        rw [List.length_eraseIdx_of_lt (by omega)]
        omega
      · exact k2 w hw
    · rw [pathIndex, k4]
      exact Nat.mod_add_div i A

theorem path_sound (hA : 0 < A) {d : Nat} {l : List F} (hl : l.length = A ^ d) {x : F}
    {ws : List (WitnessElement F)} (hw : PathArity A ws) (hd : ws.length = d)
    (h : pathRoot H x ws = merkleRoot H A d l) : l[pathIndex A ws]? = some x ∨ Collision H A := by
  induction d generalizing l x ws with
  | zero =>
    match ws, l, hd, hl with
    | [], [a], _, _ =>
      left
      have : x = a := h
      simp [pathIndex, this]
  | succ d ih =>
    match ws, hd with
    | w :: ws, hd =>
      have hlay := length_layer (h := H) (A := A) (m := A ^ d) hA (l := l) (by rw [hl, pow_succ'])
      rw [merkleRoot_layer hA d hl, pathRoot] at h
      obtain ⟨ls, g1, g2, g3⟩ := exists_chunks (A := A) (m := A ^ d) (l := l) (by rw [hl, pow_succ'])
      obtain ⟨h1, h2⟩ := hw w (by simp)
      rcases ih hlay (fun w hw' => hw w (by simp [hw'])) (by simpa using hd) h with hx | hx
      · rw [g3, layer_flatten hA g2, List.getElem?_map] at hx
        obtain ⟨c, hc, hH⟩ := Option.map_eq_some_iff.mp hx
        have hcA := g2 c (List.mem_of_getElem? hc)
        by_cases e : c = children w x
        · left
          have e1 : pathIndex A (w :: ws) / A = pathIndex A ws := by
            rw [pathIndex, Nat.add_mul_div_left _ _ hA, Nat.div_eq_of_lt h2, Nat.zero_add]
          have e2 : pathIndex A (w :: ws) % A = w.position := by
            rw [pathIndex, Nat.add_mul_mod_self_left, Nat.mod_eq_of_lt h2]
          rw [g3, getElem?_flatten hA g2, e1, e2, hc]
          simp only [Option.bind_some]
          rw [e, children, List.getElem?_append_right (by simp), List.length_take,
            Nat.min_eq_left (by omega)]
          simp
        · right
          exact ⟨c, children w x, hcA, by simp [children]; omega, e, hH⟩
      · exact Or.inr hx

end Plain

end Verif.Merkle
