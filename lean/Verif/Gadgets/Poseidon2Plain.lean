import Verif.Gadgets.Poseidon2Rounds
import Mathlib.Algebra.BigOperators.Ring.Finset
import Mathlib.Algebra.BigOperators.Group.Finset.Piecewise
import Mathlib.Tactic.LinearCombination

/-!
# Poseidon2 in the clear is the permutation of the paper
-/

namespace Verif.Poseidon2

open Finset (sum range)

variable {F : Type} [CommRing F]

theorem matmulM4_row {x : List F} (hx : x.length = 4) {b : Nat} (hb : b < 4) :
    (matmulM4 x).getD b 0 = ∑ j ∈ range 4, m4 b j * x.getD j 0 := by
  match x, hx with
  | [x0, x1, x2, x3], _ =>
    have : b = 0 ∨ b = 1 ∨ b = 2 ∨ b = 3 := by omega
    rcases this with rfl | rfl | rfl | rfl <;>
      simp [matmulM4, m4, Finset.sum_range_succ] <;> ring

theorem getD_flatten4 {ls : List (List F)} (h : ∀ l ∈ ls, l.length = 4) {a b : Nat} (hb : b < 4) :
    ls.flatten.getD (4 * a + b) 0 = (ls.getD a []).getD b 0 := by
  induction ls generalizing a with
  | nil => simp
  | cons l ls ih =>
    have hl := h l (by simp)
    cases a with
    | zero => simp [List.getElem?_append_left (show b < l.length by omega)]
    | succ a =>
      have := ih (fun l hl => h l (by simp [hl])) (a := a)
      have e : (l :: ls).flatten.getD (4 * (a + 1) + b) 0 = ls.flatten.getD (4 * a + b) 0 := by
        rw [List.flatten_cons, List.getD_eq_getElem?_getD, List.getElem?_append_right (by omega),
          show 4 * (a + 1) + b - l.length = 4 * a + b by omega, List.getD_eq_getElem?_getD]
      rw [e, this]
      simp

theorem sum_range_four_mul (f : Nat → F) (k : Nat) :
    ∑ j ∈ range (4 * k), f j = ∑ c ∈ range k, ∑ d ∈ range 4, f (4 * c + d) := by
  induction k with
  | zero => simp
  | succ k ih =>
    rw [Finset.sum_range_succ, ← ih, show 4 * (k + 1) = 4 * k + 1 + 1 + 1 + 1 by omega]
    simp only [Finset.sum_range_succ, Finset.sum_range_zero, Nat.add_assoc, Nat.add_zero]
    ring

theorem foldBlocks_getD {ls : List (List F)} (h : ∀ l ∈ ls, l.length = 4) {x : List F} (hx : x.length = 4)
    {b : Nat} (hb : b < 4) :
    (ls.foldl (List.zipWith (· + ·)) x).getD b 0 = x.getD b 0 + (ls.map fun l => l.getD b 0).sum := by
  induction ls generalizing x with
  | nil => simp
  | cons l ls ih =>
    have hl := h l (by simp)
    rw [List.foldl_cons, ih (fun l hl => h l (by simp [hl])) (by simp [hx, hl])]
    simp only [List.map_cons, List.sum_cons]
    have : (List.zipWith (· + ·) x l).getD b 0 = x.getD b 0 + l.getD b 0 := by
      simp only [List.getD_eq_getElem?_getD, List.getElem?_zipWith,
        List.getElem?_eq_getElem (show b < x.length by omega),
        List.getElem?_eq_getElem (show b < l.length by omega)]
      simp
    rw [this]
    ring

theorem addBlocks_getD {ls : List (List F)} (h : ∀ l ∈ ls, l.length = 4) {b : Nat} (hb : b < 4) :
    (addBlocks ls).getD b 0 = (ls.map fun l => l.getD b 0).sum := by
  cases ls with
  | nil => simp [addBlocks]
  | cons l ls =>
    rw [addBlocks, foldBlocks_getD (fun l hl => h l (by simp [hl])) (h l (by simp)) hb]
    simp

theorem sum_map_eq (ls : List (List F)) (g : List F → F) :
    (ls.map g).sum = ∑ c ∈ range ls.length, g (ls.getD c []) := by
  induction ls with
  | nil => simp
  | cons l ls ih =>
    rw [List.map_cons, List.sum_cons, ih, List.length_cons, Finset.sum_range_succ']
    simp [add_comm]

theorem getD_matVec (A : Nat → Nat → F) (x : List F) {i : Nat} (hi : i < x.length) :
    (matVec A x).getD i 0 = ∑ j ∈ range x.length, A i j * x.getD j 0 := by
  simp [matVec, List.getElem?_range, hi]

theorem length_matVec (A : Nat → Nat → F) (x : List F) : (matVec A x).length = x.length := by
  simp [matVec]

theorem ext_getD {x y : List F} (hl : x.length = y.length) (h : ∀ i < x.length, x.getD i 0 = y.getD i 0) :
    x = y := by
  refine List.ext_getElem hl fun i h1 h2 => ?_
  have := h i h1
  simpa [List.getElem?_eq_getElem, h1, h2] using this

theorem matmulExternal_blocks {ls : List (List F)} (h : ∀ l ∈ ls, l.length = 4) (h2 : 2 ≤ ls.length) :
    matmulExternal ls.flatten = matVec (externalMatrix (4 * ls.length)) ls.flatten := by
  have hlen : ls.flatten.length = 4 * ls.length := by
    rw [List.length_flatten, List.map_congr_left h]; simp [mul_comm]
  rw [matmulExternal_big (by omega), chunksExact_flatten (by omega) h]
  have hm : ∀ l ∈ ls.map matmulM4, l.length = 4 := by
    intro l hl
    obtain ⟨l', hl', rfl⟩ := List.mem_map.mp hl
    rw [length_matmulM4, h l' hl']
  have hst : (addBlocks (ls.map matmulM4)).length = 4 := by
    cases ls with
    | nil => simp at h2
    | cons l ls =>
      rw [List.map_cons, addBlocks]
      exact length_foldBlocks _ (fun d hd => hm d (by simp only [List.map_cons, List.mem_cons]; exact .inr hd)) _
        (hm _ (by simp))
  have hz : ∀ l ∈ (ls.map matmulM4).map fun block => List.zipWith (· + ·) block (addBlocks (ls.map matmulM4)),
      l.length = 4 := by
    intro l hl
    obtain ⟨l', hl', rfl⟩ := List.mem_map.mp hl
    simp [hm l' hl', hst]
  have hlz : (((ls.map matmulM4).map fun block =>
      List.zipWith (· + ·) block (addBlocks (ls.map matmulM4))).flatten).length = 4 * ls.length := by
    rw [List.length_flatten, List.map_congr_left hz, List.map_const']
    simp [mul_comm]
  refine ext_getD (by rw [hlz, length_matVec, hlen]) fun i hi => ?_
  rw [hlz] at hi
  rw [getD_matVec _ _ (by omega), hlen]
  obtain ⟨a, b, hb, rfl⟩ : ∃ a b, b < 4 ∧ i = 4 * a + b := ⟨i / 4, i % 4, by omega, by omega⟩
  have ha : a < ls.length := by omega
  rw [getD_flatten4 hz hb, sum_range_four_mul]
  have hla : (ls.getD a []).length = 4 := by
    simp [List.getElem?_eq_getElem ha, h _ (List.getElem_mem ha)]
  have e1 : (((ls.map matmulM4).map fun block =>
      List.zipWith (· + ·) block (addBlocks (ls.map matmulM4))).getD a []) =
      List.zipWith (· + ·) (matmulM4 (ls.getD a [])) (addBlocks (ls.map matmulM4)) := by
    simp [List.getElem?_eq_getElem ha]
  rw [e1]
  have e2 : (List.zipWith (· + ·) (matmulM4 (ls.getD a [])) (addBlocks (ls.map matmulM4))).getD b 0 =
      (matmulM4 (ls.getD a [])).getD b 0 + (addBlocks (ls.map matmulM4)).getD b 0 := by
    have h1 : b < (matmulM4 (ls.getD a [])).length := by rw [length_matmulM4, hla]; exact hb
    have h2 : b < (addBlocks (ls.map matmulM4)).length := by rw [hst]; exact hb
    simp only [List.getD_eq_getElem?_getD, List.getElem?_zipWith, List.getElem?_eq_getElem h2]
    simp only [List.getD_eq_getElem?_getD] at h1
    simp only [List.getElem?_eq_getElem h1]
    simp
  rw [e2, addBlocks_getD hm hb, List.map_map, sum_map_eq]
  have e3 : ∀ c ∈ range ls.length, ((fun l : List F => l.getD b 0) ∘ matmulM4) (ls.getD c []) =
      ∑ d ∈ range 4, m4 b d * ls.flatten.getD (4 * c + d) 0 := by
    intro c hc
    have hc := Finset.mem_range.mp hc
    have hlc : (ls.getD c []).length = 4 := by
      simp [List.getElem?_eq_getElem hc, h _ (List.getElem_mem hc)]
    show (matmulM4 (ls.getD c [])).getD b 0 = _
    rw [matmulM4_row hlc hb]
    refine Finset.sum_congr rfl fun d hd => ?_
    rw [getD_flatten4 h (Finset.mem_range.mp hd)]
  rw [Finset.sum_congr rfl e3]
  have e4 := e3 a (Finset.mem_range.mpr ha)
  simp only [Function.comp] at e4
  rw [e4, ← Finset.sum_erase_add _ _ (Finset.mem_range.mpr ha),
    ← Finset.sum_erase_add (range ls.length) (fun c => ∑ d ∈ range 4,
      externalMatrix (4 * ls.length) (4 * a + b) (4 * c + d) * ls.flatten.getD (4 * c + d) 0)
      (Finset.mem_range.mpr ha)]
  have e5 : ∀ c d, d < 4 → (externalMatrix (4 * ls.length) (4 * a + b) (4 * c + d) : F) =
      if a = c then 2 * m4 b d else m4 b d := by
    intro c d hd
    rw [externalMatrix, if_neg (by omega), if_neg (by omega), show (4 * a + b) / 4 = a by omega,
      show (4 * c + d) / 4 = c by omega, show (4 * a + b) % 4 = b by omega, show (4 * c + d) % 4 = d by omega]
  have e6 : ∀ c ∈ (range ls.length).erase a, (∑ d ∈ range 4,
      externalMatrix (4 * ls.length) (4 * a + b) (4 * c + d) * ls.flatten.getD (4 * c + d) 0) =
      ∑ d ∈ range 4, m4 b d * ls.flatten.getD (4 * c + d) 0 := by
    intro c hc
    refine Finset.sum_congr rfl fun d hd => ?_
    rw [e5 c d (Finset.mem_range.mp hd), if_neg (fun h => (Finset.mem_erase.mp hc).1 h.symm)]
  rw [Finset.sum_congr rfl e6]
  have e7 : (∑ d ∈ range 4, externalMatrix (4 * ls.length) (4 * a + b) (4 * a + d) *
      ls.flatten.getD (4 * a + d) 0) = 2 * ∑ d ∈ range 4, m4 b d * ls.flatten.getD (4 * a + d) 0 := by
    rw [Finset.mul_sum]
    refine Finset.sum_congr rfl fun d hd => ?_
    rw [e5 a d (Finset.mem_range.mp hd), if_pos rfl]
    ring
  rw [e7]
  ring

theorem matmulExternal_eq {x : List F} (hx : ValidSize x.length) :
    matmulExternal x = matVec (externalMatrix x.length) x := by
  have hc := hx.cases
  by_cases h4 : 4 < x.length
  · obtain ⟨ls, rfl, hk, hls⟩ := exists_blocks (n := 4) (k := x.length / 4) (l := x) (by
      rcases hc with h | h | h <;> omega)
    have hl : ls.flatten.length = 4 * ls.length := by
      rw [List.length_flatten, List.map_congr_left hls]; simp [mul_comm]
    have := matmulExternal_blocks hls (by rcases hc with h | h | h <;> omega)
    rw [← hl] at this
    exact this
  · have hl : x.length = 2 ∨ x.length = 3 ∨ x.length = 4 := by rcases hc with h | h | h <;> omega
    rcases hl with h | h | h
    · match x, h with
      | [a, b], _ =>
        simp [matmulExternal, matVec, externalMatrix, Finset.sum_range_succ, List.range_succ]
        constructor <;> ring
    · match x, h with
      | [a, b, c], _ =>
        simp [matmulExternal, matVec, externalMatrix, Finset.sum_range_succ, List.range_succ]
        refine ⟨?_, ?_, ?_⟩ <;> ring
    · match x, h with
      | [a, b, c, d], _ =>
        simp [matmulExternal, matmulM4, matVec, externalMatrix, m4, Finset.sum_range_succ, List.range_succ]
        refine ⟨?_, ?_, ?_, ?_⟩ <;> ring

theorem sumState_eq (l : List F) (a : F) : sumState l a = a + l.sum := by
  induction l generalizing a with
  | nil => simp [sumState]
  | cons x l ih => rw [sumState, ih, List.sum_cons]; ring

theorem sum_getD (l : List F) : ∑ j ∈ range l.length, l.getD j 0 = l.sum := by
  induction l with
  | nil => simp
  | cons x l ih =>
    rw [List.length_cons, Finset.sum_range_succ', List.sum_cons, ← ih]
    simp [add_comm]

theorem matmulInternal_eq {x diagM1 : List F} (hx : ValidSize x.length) (hd : diagM1.length = x.length)
    (h2 : x.length = 2 → diagM1 = [1, 2]) (h3 : x.length = 3 → diagM1 = [1, 1, 2]) :
    matmulInternal diagM1 x = matVec (internalMatrix diagM1) x := by
  have hc := hx.cases
  by_cases h4 : 4 ≤ x.length
  · obtain ⟨a, l, rfl⟩ : ∃ a l, x = a :: l := by
      cases x with
      | nil => simp at h4
      | cons a l => exact ⟨a, l, rfl⟩
    rw [matmulInternal_big (by simpa using h4)]
    refine ext_getD (by simp [length_matVec, hd]) fun i hi => ?_
    have hi' : i < (a :: l).length := by simp only [List.length_zipWith] at hi; omega
    rw [getD_matVec _ _ hi']
    have hi2 : i < diagM1.length := by omega
    have e : (List.zipWith (fun s m => s * m + sumState l a) (a :: l) diagM1).getD i 0 =
        (a :: l).getD i 0 * diagM1.getD i 0 + sumState l a := by
      simp only [List.getD_eq_getElem?_getD, List.getElem?_zipWith, List.getElem?_eq_getElem hi',
        List.getElem?_eq_getElem hi2]
      simp
    rw [e, sumState_eq, ← List.sum_cons, ← sum_getD (a :: l),
      ← Finset.sum_erase_add _ _ (Finset.mem_range.mpr hi'),
      ← Finset.sum_erase_add (range (a :: l).length)
        (fun j => internalMatrix diagM1 i j * (a :: l).getD j 0) (Finset.mem_range.mpr hi')]
    have : ∀ j ∈ (range (a :: l).length).erase i,
        internalMatrix diagM1 i j * (a :: l).getD j 0 = (a :: l).getD j 0 := by
      intro j hj
      rw [internalMatrix, if_neg (fun h => (Finset.mem_erase.mp hj).1 h.symm), one_mul]
    rw [Finset.sum_congr rfl this, internalMatrix, if_pos rfl]
    ring
  · have hl : x.length = 2 ∨ x.length = 3 := by rcases hc with h | h | h <;> omega
    rcases hl with h | h
    · rw [h2 h]
      match x, h with
      | [a, b], _ =>
        simp [matmulInternal, matVec, internalMatrix, Finset.sum_range_succ, List.range_succ]
        constructor <;> ring
    · rw [h3 h]
      match x, h with
      | [a, b, c], _ =>
        simp [matmulInternal, matVec, internalMatrix, Finset.sum_range_succ, List.range_succ]
        refine ⟨?_, ?_, ?_⟩ <;> ring

/-! ### Rounds -/

theorem length_addRcExternal {p : Params F} (hp : p.WF) {r : Nat} (hr : r < p.roundsFBeginning + p.roundsFEnd)
    {x : List F} (hx : x.length = p.t) : (addRcExternal p r x).length = p.t := by
  have hr' : r < p.rcExternal.length := by rw [hp.external]; exact hr
  have := hp.constants _ (List.getElem_mem hr')
  simp [addRcExternal, List.getElem?_eq_getElem hr', this, hx]

theorem length_addRcInternal (p : Params F) (r : Nat) (x : List F) :
    (addRcInternal p r x).length = x.length := by
  simp [addRcInternal]

theorem length_externalRound {p : Params F} (hp : p.WF) {r : Nat} (hr : r < p.roundsFBeginning + p.roundsFEnd)
    {x : List F} (hx : x.length = p.t) : (externalRound p r x).length = p.t := by
  have h := length_addRcExternal hp hr hx
  rw [externalRound, length_matmulExternal (by simp [h]; exact hp.size)]
  simp [h]

theorem length_internalRound {p : Params F} (hp : p.WF) (r : Nat) {x : List F} (hx : x.length = p.t) :
    (internalRound p r x).length = p.t := by
  rw [internalRound, length_matmulInternal (by simp [length_addRcInternal, hx, hp.diag])]
  simp [length_addRcInternal, hx]

theorem externalRound_eq {p : Params F} (hp : p.WF) {r : Nat} (hr : r < p.rcExternal.length)
    {x : List F} (hx : x.length = p.t) : externalRound p r x = externalStep p x p.rcExternal[r] := by
  have h := length_addRcExternal hp (r := r) (by rw [← hp.external]; exact hr) hx
  rw [externalRound, externalStep, matmulExternal_eq (by simp [h]; exact hp.size)]
  have e : singleSbox p.d = fun x : F => x ^ p.d := funext (singleSbox_eq p.d)
  have hl : ((addRcExternal p r x).map (singleSbox p.d)).length = p.t := by simp [h]
  rw [hl, e, addRcExternal, List.getD_eq_getElem?_getD, List.getElem?_eq_getElem hr, Option.getD_some]

theorem internalRound_eq {p : Params F} (hp : p.WF) (h2 : p.t = 2 → p.diagM1 = [1, 2])
    (h3 : p.t = 3 → p.diagM1 = [1, 1, 2]) {r : Nat} (hr : r < p.rcInternal.length)
    {x : List F} (hx : x.length = p.t) : internalRound p r x = internalStep p x p.rcInternal[r] := by
  have hl : (onFirst (singleSbox p.d) (addRcInternal p r x)).length = p.t := by
    simp [length_addRcInternal, hx]
  unfold internalRound internalStep
  rw [matmulInternal_eq (by rw [hl]; exact hp.size) (by rw [hl, hp.diag])
    (by rw [hl]; exact h2) (by rw [hl]; exact h3)]
  congr 1
  cases x with
  | nil => rfl
  | cons a l => simp [addRcInternal, onFirst, singleSbox_eq, List.getElem?_eq_getElem hr]

theorem foldl_index {V C : Type} (Inv : V → Prop) (f : Nat → V → V) (g : V → C → V) :
    ∀ (l : List C) (s : Nat) (v : V),
    (∀ k (hk : k < l.length) v, Inv v → f (s + k) v = g v l[k]) → (∀ k < l.length, ∀ v, Inv v → Inv (f (s + k) v)) →
    Inv v →
    (List.range' s l.length).foldl (fun v r => f r v) v = l.foldl g v ∧
      Inv ((List.range' s l.length).foldl (fun v r => f r v) v)
  | [], _, _, _, _, hv => ⟨rfl, hv⟩
  | c :: l, s, v, hf, hI, hv => by
    have ih := foldl_index Inv f g l (s + 1) (f s v)
      (fun k hk v hv => by
        have := hf (k + 1) (by simpa using hk) v hv
        rw [show s + 1 + k = s + (k + 1) by omega, this]; simp)
      (fun k hk v hv => by
        have := hI (k + 1) (by simpa using hk) v hv
        rwa [show s + 1 + k = s + (k + 1) by omega])
      (by simpa using hI 0 (by simp) v hv)
    have h0 : f s v = g v c := hf 0 (by simp) v hv
    rw [List.length_cons, List.range'_succ, List.foldl_cons, List.foldl_cons, ← h0]
    exact ih

theorem permutation_eq {p : Params F} (hp : p.WF) {x : List F} (hx : x.length = p.t) :
    permutation p x = some (poseidon2 p x) := by
  rw [permutation, if_pos (show ValidSize p.t from hp.size)]
  have h2 : p.t = 2 → p.diagM1 = [1, 2] := fun h => by simpa using hp.two h
  have h3 : p.t = 3 → p.diagM1 = [1, 1, 2] := fun h => by simpa using hp.three h
  congr 1
  have hs : ValidSize x.length := by rw [hx]; exact hp.size
  rw [permutationRounds, rounds_id, matmulExternal_eq hs, hx, poseidon2, roundsPlain]
  have hlt : (p.rcExternal.take p.roundsFBeginning).length = p.roundsFBeginning := by
    simp [hp.external]
  have hld : (p.rcExternal.drop p.roundsFBeginning).length = p.roundsFEnd := by
    simp [hp.external]
  have a := foldl_index (fun v : List F => v.length = p.t) (externalRound p) (externalStep p)
    (p.rcExternal.take p.roundsFBeginning) 0 (matVec (externalMatrix p.t) x)
    (fun k hk v hv => by
      rw [hlt] at hk
      simp only [Nat.zero_add, List.getElem_take]
      exact externalRound_eq hp (by rw [hp.external]; omega) hv)
    (fun k hk v hv => by
      rw [hlt] at hk
      exact length_externalRound hp (by omega) hv)
    (by rw [length_matVec, hx])
  rw [hlt, ← List.range_eq_range'] at a
  have b := foldl_index (fun v : List F => v.length = p.t) (internalRound p) (internalStep p)
    p.rcInternal 0 _
    (fun k hk v hv => by
      simp only [Nat.zero_add]
      exact internalRound_eq hp h2 h3 hk hv)
    (fun k hk v hv => length_internalRound hp _ hv) a.2
  rw [hp.internal, ← List.range_eq_range'] at b
  have c := foldl_index (fun v : List F => v.length = p.t) (externalRound p) (externalStep p)
    (p.rcExternal.drop p.roundsFBeginning) p.roundsFBeginning _
    (fun k hk v hv => by
      rw [hld] at hk
      simp only [List.getElem_drop]
      exact externalRound_eq hp (by rw [hp.external]; omega) hv)
    (fun k hk v hv => by
      rw [hld] at hk
      exact length_externalRound hp (by omega) hv)
    b.2
  rw [hld] at c
  rw [c.1, b.1, a.1]

theorem permutationRounds_poseidon2 {p : Params F} (hp : p.WF) {x : List F} (hx : x.length = p.t) :
    permutationRounds p (matmulExternal x) = poseidon2 p x := by
  have := permutation_eq hp hx
  rw [permutation, if_pos (show ValidSize p.t from hp.size)] at this
  exact Option.some.inj this

end Verif.Poseidon2
