import Verif.Yao.SortCircLemmas

/-!
# C53: the sorting network sorts

`Computes` (`Verif/Spec/Garble.lean`) covers the plain circuit and the garbled one.
-/

namespace Verif.Props

open Verif.Yao Verif.Yao.Circ

/-- The sorting circuit, on any number of numbers of `n` bits: the result is a permutation of the inputs, in ascending
order. -/
theorem C53_sorts {n : Nat} (hn : 0 < n) {ins : List (List Bool)} (hne : ins ≠ []) (hl : ∀ x ∈ ins, x.length = n) :
    ∃ outs : List (List Bool), outs.Perm ins ∧ outs.Pairwise (fun x y => val x ≤ val y) ∧
      Computes (many fun _ => batcherInner) ins outs.flatten := by
  obtain ⟨h1, h2⟩ := sorted_foldl ins
  refine ⟨_, h1, h2, .of_spec fun I J E z z' as bs _ h => ?_⟩
  refine CSpec.bind (f := fun x => Circ.ret (List.flatten x)) (f' := fun x => Circ.ret (List.flatten x))
    (spec_batcherInner hn h hl hne) fun r r' hr => ?_
  exact CSpec.ret hr.flatten'

/-- Sorting shared field elements: element `i` is `as[i] + bs[i]` modulo `p`.  The keys, the elements modulo
`2 ^ bitlen`, are put into ascending order; `cs` is added to the sorted keys, modulo `p`. -/
theorem C53_sorts_field {p w bitlen : Nat} (hp : p % 2 = 1) (hw : p < 2 ^ w) (h0 : 0 < bitlen) (hb : bitlen ≤ w)
    {as bs cs : List (List Bool)} (hne : as ≠ []) (hab : as.length = bs.length) (hac : as.length = cs.length)
    (ha : ∀ x ∈ as, x.length = w ∧ val x < p) (hb : ∀ x ∈ bs, x.length = w ∧ val x < p)
    (hc : ∀ x ∈ cs, x.length = w ∧ val x < p) :
    ∃ (keys : List Nat) (outs : List (List Bool)),
      keys.Perm (List.zipWith (fun a b => (val a + val b) % p % 2 ^ bitlen) as bs) ∧
      keys.Pairwise (· ≤ ·) ∧ (∀ x ∈ outs, x.length = w) ∧
      outs.map val = List.zipWith (fun s c => (s + val c) % p) keys cs ∧
      Computes (threeIn fun _ a b c => batcherSort p w a b c bitlen) [as.flatten, bs.flatten, cs.flatten]
        outs.flatten := by
  obtain ⟨h1, h2⟩ := sorted_foldl (sortKeys p bitlen as bs)
  refine ⟨((sortPairs (sortKeys p bitlen as bs).length).foldl stepBits (sortKeys p bitlen as bs)).map val,
    ((((sortPairs (sortKeys p bitlen as bs).length).foldl stepBits
        (sortKeys p bitlen as bs)).zip cs).map fun sc => uintToBits ((val sc.1 + val sc.2) % p) w), ?_, ?_, ?_, ?_, ?_⟩
  · refine (h1.map val).trans (.of_eq ?_)
    rw [sortKeys, List.map_map, ← List.map_uncurry_zip_eq_zipWith]
    refine List.map_congr_left fun ab _ => ?_
    simp [val_uintToBits, Function.uncurry]
  · rw [List.pairwise_map]
    exact h2
  · intro x hx
    obtain ⟨_, -, rfl⟩ := List.mem_map.1 hx
    exact length_uintToBits _ _
  · rw [List.map_map, List.zipWith_map_left, ← List.map_uncurry_zip_eq_zipWith]
    refine List.map_congr_left fun ab _ => ?_
    simp only [Function.comp, Function.uncurry, val_uintToBits]
    exact Nat.mod_eq_of_lt ((Nat.mod_lt _ (by omega)).trans hw)
  · refine .of_spec fun I J E z z' xs ys _ h => ?_
    obtain ⟨a, b, c, a', b', c', rfl, rfl, e1, e2, e3⟩ := all3_three h
    exact spec_batcherSort hp hw h0 ‹_› hne hab hac ha hb hc e1 e2 e3

-- 6, 1, 4, 3, 5 on three bits
example : ([[false, true, true], [true, false, false], [false, false, true], [true, true, false],
    [true, false, true]] : List (List Bool)).map val = [6, 1, 4, 3, 5] ∧
    ∀ x ∈ ([[false, true, true], [true, false, false], [false, false, true], [true, true, false],
    [true, false, true]] : List (List Bool)), x.length = 3 := by decide

-- modulo 7: 6 + 2 = 1 and 1 + 2 = 3 and 4 + 3 = 0, two bits of the key
example : (7 : Nat) % 2 = 1 ∧ 7 < 2 ^ 3 ∧
    ∀ x ∈ ([[false, true, true], [true, false, false], [false, false, true], [false, true, false]] :
      List (List Bool)), x.length = 3 ∧ val x < 7 := by decide

end Verif.Props
