import Verif.Gadgets.Merkle
import Verif.Spec.Merkle
import Verif.Gadgets.Poseidon2Plain
import Verif.Gadgets.Poseidon2Rep3Lemmas

/-!
# Merkle trees: pure lemmas
-/

namespace Verif.Merkle

open Poseidon2

variable {F S α : Type}

/-! Lists of blocks -/

theorem exists_chunks {A m : Nat} {l : List α} (h : l.length = A * m) :
    ∃ ls : List (List α), ls.length = m ∧ (∀ c ∈ ls, c.length = A) ∧ l = ls.flatten := by
  induction m generalizing l with
  | zero => exact ⟨[], rfl, by simp, by simpa using h⟩
  | succ m ih =>
    obtain ⟨ls, h1, h2, h3⟩ := ih (l := l.drop A) (by simp [h, Nat.mul_succ])
    refine ⟨l.take A :: ls, by simp [h1], ?_, by simp [← h3]⟩
    simp only [List.mem_cons, forall_eq_or_imp]
    exact ⟨by simp [h, Nat.mul_succ], h2⟩

theorem drop_flatten {A : Nat} {ls : List (List α)} (h : ∀ c ∈ ls, c.length = A) (k : Nat) :
    ls.flatten.drop (k * A) = (ls.drop k).flatten := by
  induction k generalizing ls with
  | zero => simp
  | succ k ih =>
    cases ls with
    | nil => simp
    | cons c ls =>
      have hc := h c (by simp)
      rw [List.flatten_cons, Nat.succ_mul, Nat.add_comm (k * A), ← hc, List.drop_length_add_append, hc,
        ih fun c hc => h c (by simp [hc])]
      rfl

theorem take_flatten {A : Nat} {ls : List (List α)} (h : ∀ c ∈ ls, c.length = A) (k : Nat) :
    ls.flatten.take (k * A) = (ls.take k).flatten := by
  induction k generalizing ls with
  | zero => simp
  | succ k ih =>
    cases ls with
    | nil => simp
    | cons c ls =>
      have hc := h c (by simp)
      rw [List.flatten_cons, Nat.succ_mul, Nat.add_comm (k * A), ← hc, List.take_length_add_append, hc,
        ih fun c hc => h c (by simp [hc])]
      rfl

theorem getElem?_flatten {T : Nat} (hT : 0 < T) {ls : List (List α)} (h : ∀ c ∈ ls, c.length = T) (q : Nat) :
    ls.flatten[q]? = ls[q / T]?.bind (·[q % T]?) := by
  induction ls generalizing q with
  | nil => simp
  | cons c ls ih =>
    have hc := h c (by simp)
    rw [List.flatten_cons]
    by_cases hq : q < T
    · rw [List.getElem?_append_left (by omega), Nat.div_eq_of_lt hq, Nat.mod_eq_of_lt hq]
      simp
    · have e1 : q / T = (q - T) / T + 1 := Nat.div_eq_sub_div hT (by omega)
      have e2 : q % T = (q - T) % T := Nat.mod_eq_sub_mod (by omega)
      rw [List.getElem?_append_right (by omega), hc, ih fun c hc => h c (by simp [hc]), e1, e2,
        List.getElem?_cons_succ]

/-! The layers of the tree -/

section

variable [Zero F]

/-- The next layer. -/
def layer (h : List F → F) (A : Nat) (l : List F) : List F := (chunksExact A l).map h

theorem layer_flatten {h : List F → F} {A : Nat} (hA : 0 < A) {ls : List (List F)}
    (hl : ∀ c ∈ ls, c.length = A) : layer h A ls.flatten = ls.map h := by
  rw [layer, chunksExact_flatten hA hl]

theorem length_layer {h : List F → F} {A m : Nat} (hA : 0 < A) {l : List F} (hl : l.length = A * m) :
    (layer h A l).length = m := by
  obtain ⟨ls, h1, h2, rfl⟩ := exists_chunks hl
  rw [layer_flatten hA h2, List.length_map, h1]

theorem merkleRoot_layer {h : List F → F} {A : Nat} (hA : 0 < A) (d : Nat) {l : List F}
    (hl : l.length = A ^ (d + 1)) : merkleRoot h A (d + 1) l = merkleRoot h A d (layer h A l) := by
  induction d generalizing l with
  | zero =>
    have hl' : l.length = A := by simpa using hl
    have e : layer h A l = [h l] := by
      have := layer_flatten (h := h) hA (ls := [l]) (by simpa using hl')
      simpa using this
    rw [e, merkleRoot, merkleRoot]
    simp only [List.headD_cons]
    congr 1
    apply List.ext_getElem
    · simp [hl']
    · intro k h1 h2
      simp [merkleRoot, List.head?_take, List.head?_drop, List.getElem?_eq_getElem h2]
  | succ d ih =>
    rw [merkleRoot, merkleRoot]
    congr 1
    refine List.map_congr_left fun k hk => ?_
    simp only [List.mem_range] at hk
    rw [ih]
    · congr 1
      obtain ⟨ls, h1, h2, rfl⟩ := exists_chunks (A := A) (m := A ^ (d + 1)) (l := l) (by rw [hl, pow_succ']; )
      rw [layer_flatten hA h2, pow_succ, ← mul_assoc, drop_flatten h2,
        take_flatten (fun c hc => h2 c (List.mem_of_mem_drop hc)),
        layer_flatten hA fun c hc => h2 c (List.mem_of_mem_drop (List.mem_of_mem_take hc)), List.map_take,
        List.map_drop]
    · rw [List.length_take, List.length_drop, hl]
      have e : A ^ (d + 1 + 1) = A * A ^ (d + 1) := pow_succ' _ _
      have : k * A ^ (d + 1) + A ^ (d + 1) ≤ A * A ^ (d + 1) := by
        rw [← Nat.succ_mul]; exact Nat.mul_le_mul_right _ hk
      omega

end

/-! Padding -/

/-- One padded block. -/
def padOne (z : S) (t : Nat) (c : List S) : List S := c ++ List.replicate (t - c.length) z

theorem length_padOne (z : S) {t : Nat} {c : List S} (h : c.length ≤ t) : (padOne z t c).length = t := by
  simp [padOne]; omega

theorem pad_flatten (z : S) (t : Nat) {A : Nat} (hA : 0 < A) {ls : List (List S)} (h : ∀ c ∈ ls, c.length = A) :
    pad z t A ls.flatten = (ls.map (padOne z t)).flatten := by
  rw [pad, chunksExact_flatten hA h, List.flatMap_def]; rfl

/-- What a state without padding looks like when it needs none. -/
theorem pad_self (z : S) {A m : Nat} (hA : 0 < A) {l : List S} (hl : l.length = A * m) : pad z A A l = l := by
  obtain ⟨ls, h1, h2, rfl⟩ := exists_chunks hl
  rw [pad_flatten z A hA h2]
  congr 1
  rw [List.map_congr_left (g := id) fun c hc => by simp [padOne, h2 c hc]]
  simp

theorem length_pad (z : S) {t A m : Nat} (hA : 0 < A) (hAt : A ≤ t) {l : List S} (hl : l.length = A * m) :
    (pad z t A l).length = t * m := by
  obtain ⟨ls, h1, h2, rfl⟩ := exists_chunks hl
  rw [pad_flatten z t hA h2, length_flatten_const (t := t), List.length_map, h1, Nat.mul_comm]
  intro u hu
  obtain ⟨c, hc, rfl⟩ := List.mem_map.mp hu
  exact length_padOne z (by rw [h2 c hc]; exact hAt)

theorem getElem?_pad (z : S) {t A m : Nat} (hA : 0 < A) (hAt : A ≤ t) {l : List S} (hl : l.length = A * m)
    {q : Nat} (hq : q < t * m) :
    (pad z t A l)[q]? = some (if q % t < A then l.getD (A * (q / t) + q % t) z else z) := by
  obtain ⟨ls, h1, h2, rfl⟩ := exists_chunks hl
  have ht : 0 < t := by omega
  have hq' : q / t < ls.length := by rw [h1]; exact Nat.div_lt_of_lt_mul hq
  have hm : q % t < t := Nat.mod_lt _ ht
  have hlen := h2 _ (List.getElem_mem hq')
  rw [pad_flatten z t hA h2, getElem?_flatten ht]
  · rw [List.getElem?_map, List.getElem?_eq_getElem hq']
    simp only [Option.map_some, Option.bind_some, padOne]
    split
    · rename_i h
      rw [List.getElem?_append_left (by omega), List.getD_eq_getElem?_getD, getElem?_flatten hA h2]
      have e1 : (A * (q / t) + q % t) / A = q / t := by
        rw [Nat.mul_add_div hA, Nat.div_eq_of_lt h, Nat.add_zero]
      have e2 : (A * (q / t) + q % t) % A = q % t := by
        rw [Nat.mul_add_mod, Nat.mod_eq_of_lt h]
      rw [e1, e2, List.getElem?_eq_getElem hq']
      simp only [Option.bind_some]
      rw [List.getElem?_eq_getElem (by omega)]
      rfl
    · rw [List.getElem?_append_right (by omega), List.getElem?_replicate, if_pos (by omega)]
  · intro u hu
    obtain ⟨c, hc, rfl⟩ := List.mem_map.mp hu
    exact length_padOne z (by rw [h2 c hc]; exact hAt)

/-! Compaction in place -/

/-- The first elements of the first `m` blocks. -/
def heads (z : S) (t m : Nat) (l : List S) : List S := (List.range m).map fun k => l.getD (t * k) z

theorem foldlM_range' {σ : Type} {f : σ → Nat → Option σ} (Inv : Nat → σ → Prop) {a n : Nat}
    (h : ∀ k, a ≤ k → k < a + n → ∀ s, Inv k s → ∃ s', f s k = some s' ∧ Inv (k + 1) s') {s : σ} (hs : Inv a s) :
    ∃ s', (List.range' a n).foldlM f s = some s' ∧ Inv (a + n) s' := by
  induction n generalizing a s with
  | zero => exact ⟨s, rfl, hs⟩
  | succ n ih =>
    obtain ⟨s1, h1, h2⟩ := h a (le_refl _) (by omega) s hs
    obtain ⟨s2, h3, h4⟩ := ih (a := a + 1) (fun k h1 h2 => h k (by omega) (by omega)) h2
    refine ⟨s2, ?_, by rw [show a + (n + 1) = a + 1 + n by omega]; exact h4⟩
    rw [List.range'_succ, List.foldlM_cons, h1]
    exact h3

theorem foldlM_range {σ : Type} {f : σ → Nat → Option σ} (Inv : Nat → σ → Prop) {n : Nat}
    (h : ∀ k < n, ∀ s, Inv k s → ∃ s', f s k = some s' ∧ Inv (k + 1) s') {s : σ} (hs : Inv 0 s) :
    ∃ s', (List.range n).foldlM f s = some s' ∧ Inv n s' := by
  rw [List.range_eq_range']
  have := foldlM_range' (a := 0) Inv (n := n) (fun k _ hk => h k (by omega)) hs
  simpa using this

theorem compact_spec (z : S) {t A m : Nat} (hA : 0 < A) (hAt : A ≤ t) {l : List S}
    (hl : t * (A * m) ≤ l.length) :
    ∃ l', compact z t A (A * m) l = some l' ∧ l'.length = l.length ∧
      l'.take (t * m) = pad z t A (heads z t (A * m) l) := by
  have ht : 0 < t := by omega
  let tgt : Nat → S := fun q => if q % t < A then l.getD (t * (A * (q / t) + q % t)) z else z
  let Inv : Nat → List S → Prop := fun q s =>
    s.length = l.length ∧ ∀ k, s[k]? = if k < q then some (tgt k) else l[k]?
  have hset : ∀ q s x, Inv q s → q < l.length → x = tgt q → Inv (q + 1) (s.set q x) := by
    rintro q s x ⟨h1, h2⟩ hq rfl
    refine ⟨by simpa using h1, fun k => ?_⟩
    rw [List.getElem?_set]
    by_cases hk : q = k
    · subst hk
      rw [if_pos rfl, if_pos (by omega), if_pos (by omega)]
    · rw [if_neg hk, h2]
      by_cases hkq : k < q
      · rw [if_pos hkq, if_pos (by omega)]
      · rw [if_neg hkq, if_neg (by omega)]
  obtain ⟨s, h1, h2, h3⟩ : ∃ s, compact z t A (A * m) l = some s ∧ Inv (t * m) s := by
    rw [compact, Nat.mul_div_cancel_left m hA]
    refine foldlM_range (fun i s => Inv (t * i) s) (fun i hi s hs => ?_)
      (by exact ⟨rfl, fun k => by simp⟩)
    have him : t * i + t ≤ t * m := by rw [← Nat.mul_succ]; exact Nat.mul_le_mul_left t hi
    have hmA : t * m ≤ t * (A * m) := Nat.mul_le_mul_left t (Nat.le_mul_of_pos_left m hA)
    obtain ⟨s1, h1, h2⟩ := foldlM_range (f := fun input j => copy input (t * i + j) (t * A * i + j * t))
      (fun j s => Inv (t * i + j) s) (n := A) (s := s) (fun j hj s hs => by
        have e1 : (t * i + j) % t = j := by rw [Nat.mul_add_mod, Nat.mod_eq_of_lt (by omega)]
        have e2 : (t * i + j) / t = i := by
          rw [Nat.mul_add_div ht, Nat.div_eq_of_lt (by omega), Nat.add_zero]
        have e3 : t * A * i + j * t = t * (A * i + j) := by ring
        have hsrc : A * i + j < A * m := by
          have : A * i + A ≤ A * m := by rw [← Nat.mul_succ]; exact Nat.mul_le_mul_left A hi
          omega
        have hsrc' : t * (A * i + j) < l.length := by
          have : t * (A * i + j) + t ≤ t * (A * m) := by
            rw [← Nat.mul_succ]; exact Nat.mul_le_mul_left t hsrc
          omega
        have hge : t * i + j ≤ t * (A * i + j) := by
          rw [Nat.mul_add]
          exact Nat.add_le_add (Nat.mul_le_mul_left t (Nat.le_mul_of_pos_left i hA))
            (Nat.le_mul_of_pos_left j ht)
        have hx : s[t * A * i + j * t]? = some l[t * (A * i + j)] := by
          rw [e3, hs.2, if_neg (by omega), List.getElem?_eq_getElem hsrc']
        refine ⟨s.set (t * i + j) l[t * (A * i + j)], ?_, ?_⟩
        · rw [copy, hx]
          simp only
          rw [if_pos (by rw [hs.1]; omega)]
        · refine hset _ _ _ hs (by omega) ?_
          simp only [tgt, e1, e2, if_pos hj]
          rw [List.getD_eq_getElem?_getD, List.getElem?_eq_getElem hsrc']
          rfl) hs
    obtain ⟨s2, h3, h4⟩ := foldlM_range' (f := fun input j => put input (t * i + j) z)
      (fun j s => Inv (t * i + j) s) (a := A) (n := t - A) (s := s1) (fun j hj hj' s hs => by
        have e1 : (t * i + j) % t = j := by rw [Nat.mul_add_mod, Nat.mod_eq_of_lt (by omega)]
        refine ⟨s.set (t * i + j) z, ?_, ?_⟩
        · rw [put, if_pos (by rw [hs.1]; omega)]
        · refine hset _ _ _ hs (by omega) ?_
          simp only [tgt, e1]
          rw [if_neg (by omega)]) h2
    refine ⟨s2, ?_, ?_⟩
    · simp only [h1, Option.bind_eq_bind, Option.bind_some]
      exact h3
    · rw [show t * (i + 1) = t * i + (A + (t - A)) by rw [Nat.mul_succ]; omega]
      exact h4
  refine ⟨s, h1, h2, ?_⟩
  have hlen : (heads z t (A * m) l).length = A * m := by simp [heads]
  have hmA : t * m ≤ t * (A * m) := Nat.mul_le_mul_left t (Nat.le_mul_of_pos_left m hA)
  apply List.ext_getElem?
  intro q
  by_cases hq : q < t * m
  · rw [List.getElem?_take_of_lt hq, h3, if_pos hq, getElem?_pad z hA hAt hlen hq]
    simp only [tgt]
    congr 1
    split
    · rename_i hqm
      have hlt : A * (q / t) + q % t < A * m := by
        have : q / t < m := Nat.div_lt_of_lt_mul hq
        have : A * (q / t) + A ≤ A * m := by rw [← Nat.mul_succ]; exact Nat.mul_le_mul_left A this
        omega
      rw [heads, List.getD_eq_getElem?_getD (l := List.map _ _), List.getElem?_map, List.getElem?_range hlt]
      rfl
    · rfl
  · rw [List.getElem?_eq_none (by simp; omega), List.getElem?_eq_none (by
      rw [length_pad z hA hAt hlen]; omega)]

theorem compact_one (z : S) {t A : Nat} (hA : 2 ≤ A) (l : List S) : compact z t A 1 l = some l := by
  rw [compact, Nat.div_eq_of_lt (by omega)]; rfl

theorem heads_flatten (z : S) {t : Nat} (ht : 0 < t) {ls : List (List S)} (h : ∀ c ∈ ls, c.length = t)
    (rest : List S) : heads z t ls.length (ls.flatten ++ rest) = ls.map (·.headD z) := by
  apply List.ext_getElem
  · simp [heads]
  · intro k h1 h2
    have hk : k < ls.length := by simpa using h2
    have hlen : ls.flatten.length = ls.length * t := length_flatten_const h
    have hkt : t * k < ls.flatten.length := by
      rw [hlen, Nat.mul_comm]; exact Nat.mul_lt_mul_of_pos_right hk ht
    have hc := h _ (List.getElem_mem hk)
    simp only [heads, List.getElem_map, List.getElem_range]
    rw [List.getD_eq_getElem?_getD, List.getElem?_append_left hkt, getElem?_flatten ht h,
      Nat.mul_div_cancel_left k ht, Nat.mul_mod_right, List.getElem?_eq_getElem hk]
    simp only [Option.bind_some]
    cases hls : ls[k] with
    | nil => rw [hls] at hc; simp at hc; omega
    | cons a b => simp

theorem checkLen_pow {A d : Nat} (hA : 2 ≤ A) : checkLen A (A ^ d) = some () := by
  rw [checkLen, if_pos ⟨hA, Nat.pow_pos (by omega), by rw [Nat.log_pow (by omega)]⟩]

end Verif.Merkle
