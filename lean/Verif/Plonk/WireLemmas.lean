import Verif.Plonk.PolyLemmas
import Verif.Spec.Plonk

/-!
# Lemmas: the wires of the reference prover carry the signals of the assignment
-/

namespace Verif.Plonk

open Groth16 (resize)

variable {F G H : Type} [Field F] [DecidableEq F]

theorem index_eq {α : Type} {l : List α} {i : Nat} {x : α} (h : l[i]? = some x) : index l i = .ok x := by simp [index, h]

omit [DecidableEq F] in
theorem index_getD {l : List F} {i : Nat} (h : i < l.length) : index l i = .ok (l.getD i 0) := by
  simp [index, List.getD_eq_getElem?_getD, List.getElem?_eq_getElem h]

section Wit

variable {key : Zkey F G H} {inputs wit : List F} (hw : key.WellFormed) (hf : key.Fits inputs wit)

include hw hf

omit hw [DecidableEq F] in
/-- What `get_witness` returns. -/
theorem getWitness_eq (adds : List F) {i : Nat} (hi : i < key.nVars) (hi2 : i < key.nVars - key.nAdditions + adds.length) :
    getWitness (fun x => x) key (0 :: inputs) wit adds i = .ok ((0 :: inputs ++ wit ++ adds).getD i 0) := by
  have h1 := hf.inputs
  have h2 := hf.witness
  unfold getWitness
  split_ifs with ha hb
  · rw [index_getD (by simp; omega)]
    simp only [Except.map]
    rw [List.append_assoc, List.getD_eq_getElem?_getD, List.getD_eq_getElem?_getD, List.getElem?_append_left (by simp; omega)]
  · rw [index_getD (by omega), List.getD_eq_getElem?_getD, List.getD_eq_getElem?_getD,
      List.getElem?_append_left (by simp; omega), List.getElem?_append_right (by simp; omega)]
    congr 3
    simp; omega
  · rw [index_getD (by omega), List.getD_eq_getElem?_getD, List.getD_eq_getElem?_getD, List.getElem?_append_right (by simp; omega)]
    congr 3
    simp; omega

omit [DecidableEq F] in
/-- The additions are those of the assignment, and there is only one assignment. -/
theorem calculateAdditions_ok : ∃ adds, calculateAdditions (fun x => x) key (0 :: inputs) wit key.additions [] = .ok adds ∧
    adds.length = key.nAdditions ∧ key.IsAssignment inputs wit (0 :: inputs ++ wit ++ adds) ∧
    ∀ z, key.IsAssignment inputs wit z → z = 0 :: inputs ++ wit ++ adds := by
  have h1 := hf.inputs
  have h2 := hf.witness
  have key' : ∀ (rest : List (Addition F)) (done : List (Addition F)) (adds : List F), key.additions = done ++ rest →
      adds.length = done.length →
      (∀ j x, done[j]? = some x → adds.getD j 0 = x.factor1 * (0 :: inputs ++ wit ++ adds).getD x.id1 0
        + x.factor2 * (0 :: inputs ++ wit ++ adds).getD x.id2 0) →
      (∀ z, key.IsAssignment inputs wit z → ∀ j, j < adds.length → adds.getD j 0 = z.getD (key.nVars - key.nAdditions + j) 0) →
      ∃ adds', calculateAdditions (fun x => x) key (0 :: inputs) wit rest adds = .ok adds' ∧
        adds'.length = key.additions.length ∧
        (∀ j x, key.additions[j]? = some x → adds'.getD j 0 = x.factor1 * (0 :: inputs ++ wit ++ adds').getD x.id1 0
          + x.factor2 * (0 :: inputs ++ wit ++ adds').getD x.id2 0) ∧
        (∀ z, key.IsAssignment inputs wit z → ∀ j, j < adds'.length →
          adds'.getD j 0 = z.getD (key.nVars - key.nAdditions + j) 0) := by
    intro rest
    induction rest with
    | nil =>
      intro done adds hd hl hr hz
      rw [List.append_nil] at hd
      exact ⟨adds, rfl, by rw [hl, hd], by rw [hd]; exact hr, hz⟩
    | cons x rest ih =>
      intro done adds hd hl hr hz
      have hget : key.additions[done.length]? = some x := by rw [hd]; simp
      have hlen : done.length < key.nAdditions := by
        have := hw.additions
        rw [hd] at this
        simp at this
        omega
      obtain ⟨e1, e2⟩ := hw.earlier _ _ hget
      have hstep : calculateAdditions (fun x => x) key (0 :: inputs) wit (x :: rest) adds =
          calculateAdditions (fun x => x) key (0 :: inputs) wit rest (adds ++
            [x.factor1 * (0 :: inputs ++ wit ++ adds).getD x.id1 0 + x.factor2 * (0 :: inputs ++ wit ++ adds).getD x.id2 0]) := by
        rw [calculateAdditions, getWitness_eq hf adds (by omega) (by omega), getWitness_eq hf adds (by omega) (by omega)]
        rfl
      rw [hstep]
      set new := x.factor1 * (0 :: inputs ++ wit ++ adds).getD x.id1 0 + x.factor2 * (0 :: inputs ++ wit ++ adds).getD x.id2 0
        with hnew
      have hext : ∀ k, k < key.nVars - key.nAdditions + adds.length →
          (0 :: inputs ++ wit ++ (adds ++ [new])).getD k 0 = (0 :: inputs ++ wit ++ adds).getD k 0 := by
        intro k hk
        rw [← List.append_assoc, List.getD_eq_getElem?_getD, List.getElem?_append_left (by simp; omega),
          ← List.getD_eq_getElem?_getD]
      refine ih (done ++ [x]) (adds ++ [new]) (by rw [hd]; simp) (by simp [hl]) ?_ ?_
      · intro j y hy
        by_cases hj : j < done.length
        · rw [List.getElem?_append_left hj] at hy
          have hya : key.additions[j]? = some y := by rw [hd, List.getElem?_append_left hj, hy]
          obtain ⟨e3, e4⟩ := hw.earlier _ _ hya
          rw [hext _ (by omega), hext _ (by omega), ← hr j y hy, List.getD_eq_getElem?_getD,
            List.getElem?_append_left (by omega), ← List.getD_eq_getElem?_getD]
        · have hj2 : j = done.length := by
            have := (List.getElem?_eq_some_iff.1 hy).1
            simp at this; omega
          subst hj2
          have : y = x := by simpa using hy.symm
          subst this
          rw [hext _ (by omega), hext _ (by omega), ← hnew, List.getD_eq_getElem?_getD, ← hl]
          simp
      · intro z hza j hj
        by_cases hj1 : j < adds.length
        · rw [List.getD_eq_getElem?_getD, List.getElem?_append_left hj1, ← List.getD_eq_getElem?_getD]
          exact hz z hza j hj1
        · have hj2 : j = adds.length := by simp at hj; omega
          subst hj2
          have e : (adds ++ [new]).getD adds.length 0 = new := by simp [List.getD_eq_getElem?_getD]
          rw [e, hl, hza.additions _ _ hget, hnew]
          have hsame : ∀ k, k < key.nVars - key.nAdditions + adds.length →
              (0 :: inputs ++ wit ++ adds).getD k 0 = z.getD k 0 := by
            intro k hk
            obtain ⟨av, hav, rfl⟩ := hza.values
            by_cases hk2 : k < (0 :: inputs ++ wit).length
            · rw [List.getD_eq_getElem?_getD, List.getD_eq_getElem?_getD, List.getElem?_append_left hk2,
                List.getElem?_append_left hk2]
            · have hlen3 : (0 :: inputs ++ wit).length = key.nVars - key.nAdditions := by simp; omega
              have := hz _ hza (k - (0 :: inputs ++ wit).length) (by omega)
              rw [show key.nVars - key.nAdditions + (k - (0 :: inputs ++ wit).length) = k by omega] at this
              rw [← this, List.getD_eq_getElem?_getD, List.getD_eq_getElem?_getD, List.getElem?_append_right (by omega)]
          rw [hsame _ (by omega), hsame _ (by omega)]
  obtain ⟨adds, e1, e2, e3, e4⟩ := key' key.additions [] [] rfl rfl (by simp) (by simp)
  rw [hw.additions] at e2
  have hlen3 : (0 :: inputs ++ wit).length = key.nVars - key.nAdditions := by simp; omega
  refine ⟨adds, e1, e2, ⟨⟨adds, e2, rfl⟩, fun j x hx => ?_⟩, fun z hz => ?_⟩
  · rw [← e3 j x hx, List.getD_eq_getElem?_getD, List.getElem?_append_right (by omega), hlen3, Nat.add_sub_cancel_left,
      ← List.getD_eq_getElem?_getD]
  · obtain ⟨av, hav, rfl⟩ := hz.values
    congr 1
    refine List.ext_getElem (by omega) fun j h3 h4 => ?_
    have := e4 _ hz j h4
    rw [← hlen3, List.getD_eq_getElem?_getD, List.getD_eq_getElem?_getD, List.getElem?_append_right (by omega),
      Nat.add_sub_cancel_left, List.getElem?_eq_getElem h3, List.getElem?_eq_getElem h4] at this
    simpa using this.symm

omit [DecidableEq F] hw in
theorem buffer_eq {adds : List F} (ha : adds.length = key.nAdditions) (hv : key.nAdditions ≤ key.nVars) {map : List Nat}
    (hm : ∀ s ∈ map, s < key.nVars) (hl : map.length ≤ key.domainSize) :
    ∃ buf, map.mapM (getWitness (fun x => x) key (0 :: inputs) wit adds) = .ok buf ∧
      (resize key.domainSize buf).length = key.domainSize ∧
      ∀ i < key.domainSize, (resize key.domainSize buf).getD i 0 = (0 :: inputs ++ wit ++ adds).getD (map.getD i 0) 0 := by
  refine ⟨map.map fun s => (0 :: inputs ++ wit ++ adds).getD s 0, ?_, by simp [resize]; omega, fun i hi => ?_⟩
  · clear hl
    induction map with
    | nil => rfl
    | cons s map ih =>
      rw [List.mapM_cons, getWitness_eq hf adds (hm s (by simp)) (by have := hm s (by simp); omega),
        ih fun t ht => hm t (by simp [ht])]
      rfl
  · simp only [resize, List.getD_eq_getElem?_getD, List.getElem?_take, List.length_map]
    rw [if_pos hi]
    by_cases hi2 : i < map.length
    · rw [List.getElem?_append_left (by simpa using hi2)]
      simp [hi2]
    · rw [List.getElem?_append_right (by simpa using hi2), List.getElem?_replicate, if_pos (by simp; omega),
        List.getElem?_eq_none (not_lt.1 hi2)]
      simp

end Wit

end Verif.Plonk
