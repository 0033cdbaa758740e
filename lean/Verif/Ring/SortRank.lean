import Verif.Ring.SortLemmas
import Mathlib.Data.List.Sort
import Mathlib.Algebra.BigOperators.Fin
import Mathlib.Algebra.BigOperators.Ring.Finset
import Mathlib.Data.Fintype.EquivFin
import Mathlib.Data.Nat.Bits

/-!
# Positions in a stable sort
-/

namespace Verif.Rep3.Radix

open Finset

variable {n : Nat}

/-- Index `j` comes before index `i` in a stable sort by `key`. -/
def Before (key : Fin n → Nat) (j i : Fin n) : Prop := key j < key i ∨ (key j = key i ∧ j < i)

instance (key : Fin n → Nat) (j i : Fin n) : Decidable (Before key j i) := by unfold Before; infer_instance

theorem Before.irrefl (key : Fin n → Nat) (i : Fin n) : ¬ Before key i i := by
  unfold Before; simp

theorem Before.trans {key : Fin n → Nat} {i j k : Fin n} (h : Before key i j) (h' : Before key j k) :
    Before key i k := by
  unfold Before at *
  rcases h with h | ⟨h, g⟩ <;> rcases h' with h' | ⟨h', g'⟩
  · left; omega
  · left; omega
  · left; omega
  · right; exact ⟨by omega, lt_trans g g'⟩

theorem Before.total (key : Fin n → Nat) {i j : Fin n} (h : i ≠ j) : Before key i j ∨ Before key j i := by
  unfold Before
  rcases lt_trichotomy (key i) (key j) with h1 | h1 | h1
  · simp [h1]
  · rcases lt_or_gt_of_ne h with h2 | h2
    · simp [h1, h2]
    · simp [h1, h2]
  · simp [h1]

/-- Number of indices that come before `i`. -/
def rank (key : Fin n → Nat) (i : Fin n) : Nat := (univ.filter fun j => Before key j i).card

theorem rank_lt_of_before {key : Fin n → Nat} {j i : Fin n} (h : Before key j i) : rank key j < rank key i := by
  apply card_lt_card
  rw [ssubset_iff_of_subset]
  · exact ⟨j, by simp [h], by simp [Before.irrefl]⟩
  · intro k hk
    simp only [mem_filter, mem_univ, true_and] at hk ⊢
    exact hk.trans h

theorem rank_lt_iff {key : Fin n → Nat} {j i : Fin n} : rank key j < rank key i ↔ Before key j i := by
  constructor
  · intro h
    by_cases e : j = i
    · subst e; omega
    · rcases Before.total key e with h' | h'
      · exact h'
      · have := rank_lt_of_before h'; omega
  · exact rank_lt_of_before

theorem rank_injective (key : Fin n → Nat) : Function.Injective (rank key) := by
  intro i j h
  by_contra e
  rcases Before.total key e with h' | h' <;> (have := rank_lt_of_before h'; omega)

theorem rank_lt (key : Fin n → Nat) (i : Fin n) : rank key i < n := by
  have : rank key i < (univ : Finset (Fin n)).card := by
    apply card_lt_card
    rw [ssubset_iff_of_subset (filter_subset _ _)]
    exact ⟨i, mem_univ _, by simp [Before.irrefl]⟩
  simpa using this

/-- The position of each index in the sorted order. -/
noncomputable def rankPerm (key : Fin n → Nat) : Equiv.Perm (Fin n) :=
  Equiv.ofBijective (fun i => ⟨rank key i, rank_lt key i⟩) ((Finite.injective_iff_bijective).1 fun i j h => by
    simp only [Fin.mk.injEq] at h
    exact rank_injective key h)

@[simp] theorem rankPerm_val (key : Fin n → Nat) (i : Fin n) : (rankPerm key i : Nat) = rank key i := rfl

theorem rankPerm_lt_iff {key : Fin n → Nat} {j i : Fin n} : rankPerm key j < rankPerm key i ↔ Before key j i := by
  rw [Fin.lt_def]; exact rank_lt_iff

/-- Sorting by the low bits and then, stably, by the next bit is sorting by the low bits with the next bit. -/
theorem rank_step (key : Fin n → Nat) (k : Nat) (i : Fin n) :
    rank (fun j => ((key ((rankPerm fun j => key j % 2 ^ k).symm j)).testBit k).toNat)
      (rankPerm (fun j => key j % 2 ^ k) i) = rank (fun j => key j % 2 ^ (k + 1)) i := by
  set ρ := rankPerm fun j => key j % 2 ^ k with hρ
  unfold rank
  refine Finset.card_bij' (fun j _ => ρ.symm j) (fun j _ => ρ j) ?_ ?_ (by simp) (by simp)
  all_goals
    have key_iff : ∀ j, Before (fun j => ((key (ρ.symm j)).testBit k).toNat) (ρ j) (ρ i) ↔
        Before (fun j => key j % 2 ^ (k + 1)) j i := by
      intro j
      have h1 : ρ j < ρ i ↔ Before (fun j => key j % 2 ^ k) j i := rankPerm_lt_iff
      have hb : ∀ x : Nat, x % 2 ^ (k + 1) = x % 2 ^ k + 2 ^ k * (x.testBit k).toNat := by
        intro x
        rw [Nat.mod_pow_succ, Nat.toNat_testBit]
      unfold Before at h1 ⊢
      simp only [Equiv.symm_apply_apply, h1, hb]
      have l1 := Nat.mod_lt (key j) (Nat.two_pow_pos k)
      have l2 := Nat.mod_lt (key i) (Nat.two_pow_pos k)
      cases (key j).testBit k <;> cases (key i).testBit k <;> simp <;> omega
  · intro j hj
    simp only [mem_filter, mem_univ, true_and] at hj ⊢
    rw [← key_iff]
    simpa using hj
  · intro j hj
    simp only [mem_filter, mem_univ, true_and] at hj ⊢
    exact (key_iff j).2 hj

/-- Moving every element to its position is the stable sort. -/
theorem mergeSort_ofFn {β : Type} (y : Fin n → β) (key : β → Nat) :
    (List.ofFn y).mergeSort (fun a b => decide (key a ≤ key b)) =
      List.ofFn fun i => y ((rankPerm fun j => key (y j)).symm i) := by
  set ρ := rankPerm fun j => key (y j) with hρ
  rw [← List.mergeSort_zipIdx]
  have hz : (List.ofFn y).zipIdx = List.ofFn fun i => (y i, (i : Nat)) := by
    apply List.ext_getElem <;> simp
  have htr : ∀ a b c : β, decide (key a ≤ key b) = true → decide (key b ≤ key c) = true →
      decide (key a ≤ key c) = true := by
    intro a b c h1 h2
    simp only [decide_eq_true_eq] at *
    omega
  have hto : ∀ a b : β, (decide (key a ≤ key b) || decide (key b ≤ key a)) = true := by
    intro a b
    simp only [Bool.or_eq_true, decide_eq_true_eq]
    omega
  have : (List.ofFn y).zipIdx.mergeSort (List.zipIdxLE fun a b => decide (key a ≤ key b)) =
      List.ofFn fun i => (y (ρ.symm i), (ρ.symm i : Nat)) := by
    refine List.Perm.eq_of_pairwise (le := fun a b => List.zipIdxLE (fun a b => decide (key a ≤ key b)) a b = true)
      ?_ (List.pairwise_mergeSort (List.zipIdxLE_trans htr) (List.zipIdxLE_total hto) _) ?_ ?_
    · intro a b ha hb hab hba
      have ha := (List.mergeSort_perm _ _).mem_iff.1 ha
      rw [hz] at ha
      obtain ⟨i, rfl⟩ := (List.mem_ofFn' _ _).1 ha
      obtain ⟨j, rfl⟩ := (List.mem_ofFn' _ _).1 hb
      simp only [List.zipIdxLE] at hab hba
      have : (i : Nat) = (ρ.symm j : Nat) := by
        split at hab <;> split at hba <;> simp_all <;> omega
      have : i = ρ.symm j := Fin.ext this
      rw [this]
    · rw [List.pairwise_ofFn]
      intro i j hij
      have hb : Before (fun j => key (y j)) (ρ.symm i) (ρ.symm j) := by
        rw [← rankPerm_lt_iff, ← hρ]
        simpa using hij
      unfold Before at hb
      simp only at hb
      simp only [List.zipIdxLE]
      rcases hb with hb | ⟨hb, hb'⟩
      · have h1 : key (y (ρ.symm i)) ≤ key (y (ρ.symm j)) := by omega
        have h2 : ¬ key (y (ρ.symm j)) ≤ key (y (ρ.symm i)) := by omega
        simp [h1, h2]
      · have h1 : key (y (ρ.symm i)) ≤ key (y (ρ.symm j)) := by omega
        have h2 : key (y (ρ.symm j)) ≤ key (y (ρ.symm i)) := by omega
        have h3 : (ρ.symm i : Nat) ≤ ρ.symm j := le_of_lt hb'
        simp [h1, h2, h3]
    · refine (List.mergeSort_perm _ _).trans ?_
      rw [hz]
      have := Equiv.Perm.ofFn_comp_perm ρ.symm (fun i => (y i, (i : Nat)))
      exact this.symm
  rw [this, map_ofFn']

/-- What the sum over prefixes computes. -/
theorem bitPerm_value (b : Fin n → Bool) (i : Fin n) :
    (1 - (if b i then 1#32 else 0#32)) * (∑ j with j.val < i.val + 1, (1 - if b j then 1#32 else 0#32)) +
      (if b i then 1#32 else 0#32) * ((∑ j, (1 - if b j then 1#32 else 0#32)) +
        ∑ j with j.val < i.val + 1, (if b j then 1#32 else 0#32)) =
    BitVec.ofNat 32 (rank (fun j => (b j).toNat) i + 1) := by
  have e0 : ∀ j, (1 - if b j then 1#32 else 0#32) = if b j = false then 1#32 else 0#32 := by
    intro j; cases b j <;> rfl
  have e1 : ∀ (s : Finset (Fin n)) (p : Fin n → Prop) [DecidablePred p],
      (∑ j ∈ s, if p j then 1#32 else 0#32) = BitVec.ofNat 32 (s.filter p).card := by
    intro s p _
    rw [← BitVec.natCast_eq_ofNat]
    exact Finset.sum_boole p s
  simp only [e0]
  rw [e1, e1, e1]
  cases hb : b i
  · simp only [Bool.false_eq_true, if_false, if_true]
    have : (filter (fun j => b j = false) (filter (fun j : Fin n => j.val < i.val + 1) univ)) =
        insert i (univ.filter fun j => Before (fun j => (b j).toNat) j i) := by
      ext j
      simp only [mem_filter, mem_univ, true_and, mem_insert, Before, hb]
      rw [Fin.ext_iff, Fin.lt_def]
      cases hj : b j <;> simp
      · omega
      · rintro h; have : j = i := Fin.ext h; rw [this, hb] at hj; simp at hj
    rw [this, card_insert_of_notMem (by simp [Before.irrefl])]
    unfold rank
    simp
  · simp only [if_true, Bool.true_eq_false, if_false]
    have h1 : (filter (fun j => b j = true) (filter (fun j : Fin n => j.val < i.val + 1) univ)) =
        insert i (univ.filter fun j => b j = true ∧ j < i) := by
      ext j
      simp only [mem_filter, mem_univ, true_and, mem_insert]
      rw [Fin.ext_iff, Fin.lt_def]
      cases hj : b j <;> simp
      · rintro h; have : j = i := Fin.ext h; rw [this, hb] at hj; simp at hj
      · omega
    have h2 : (univ.filter fun j => Before (fun j => (b j).toNat) j i) =
        (univ.filter fun j => b j = false) ∪ univ.filter fun j => b j = true ∧ j < i := by
      ext j
      simp only [mem_filter, mem_univ, true_and, mem_union, Before, hb]
      cases hj : b j <;> simp
    have h3 : (univ.filter fun j => Before (fun j => (b j).toNat) j i).card =
        (univ.filter fun j => b j = false).card + (univ.filter fun j => b j = true ∧ j < i).card := by
      rw [h2]
      apply card_union_of_disjoint
      rw [Finset.disjoint_left]
      intro j hj hj'
      simp_all
    rw [h1, card_insert_of_notMem (by simp)]
    unfold rank
    rw [h3]
    simp only [← BitVec.natCast_eq_ofNat]
    push_cast
    simp only [show (0#32 : BitVec 32) = 0 from rfl, show (1#32 : BitVec 32) = 1 from rfl]
    ring

end Verif.Rep3.Radix
