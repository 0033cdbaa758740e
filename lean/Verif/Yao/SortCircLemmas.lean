import Verif.Yao.SortNetLemmas
import Verif.Yao.ComputesLemmas
import Verif.Yao.FieldCircuitLemmas
import Mathlib.Order.WithBot
import Mathlib.Data.Nat.Basic

/-!
# The sorting circuit
-/

namespace Verif.Yao

open Circ

section

variable {I J : Type} {E : I → J → Bool → Prop}

theorem All3.get {α β γ : Type} {R : α → β → γ → Prop} {as : List α} {bs : List β} {cs : List γ}
    (h : All3 R as bs cs) {i : Nat} {c : γ} (hc : cs[i]? = some c) :
    ∃ a b, as[i]? = some a ∧ bs[i]? = some b ∧ R a b c := by
  induction h generalizing i with
  | nil => simp at hc
  | cons h _ ih =>
    cases i with
    | zero => simp at hc; subst hc; exact ⟨_, _, rfl, rfl, h⟩
    | succ i => simpa using ih (i := i) (by simpa using hc)

theorem All3.set {α β γ : Type} {R : α → β → γ → Prop} {as : List α} {bs : List β} {cs : List γ}
    (h : All3 R as bs cs) (i : Nat) {a : α} {b : β} {c : γ} (hr : R a b c) :
    All3 R (as.set i a) (bs.set i b) (cs.set i c) := by
  induction h generalizing i with
  | nil => exact .nil
  | cons h h' ih =>
    cases i with
    | zero => exact .cons hr h'
    | succ i => exact .cons h (ih i)

theorem All3.with_mem {α β γ : Type} {R : α → β → γ → Prop} {as : List α} {bs : List β} {cs : List γ}
    (h : All3 R as bs cs) {P : γ → Prop} (hp : ∀ c ∈ cs, P c) : All3 (fun a b c => R a b c ∧ P c) as bs cs := by
  induction h with
  | nil => exact .nil
  | cons h _ ih => exact .cons ⟨h, hp _ (by simp)⟩ (ih fun c hc => hp c (by simp [hc]))

/-- What a comparison does to numbers given by their bits. -/
def stepBits (xs : List (List Bool)) (ab : Nat × Nat) : List (List Bool) :=
  match xs[ab.1]?, xs[ab.2]? with
  | some x, some y => if val y < val x then (xs.set ab.1 y).set ab.2 x else xs
  | _, _ => xs

theorem spec_cmuxBoth {c c' x l l' y r r' z} (hc : E c c' x) (hl : E l l' y) (hr : E r r' z) :
    CSpec E (fun s s' => E s.1 s'.1 (if x then z else y) ∧ E s.2 s'.2 (if x then y else z)) (cmuxBoth c l r)
      (cmuxBoth c' l' r') := by
  refine (CSpec.gXor hl hr).bind fun n n' hn => ?_
  refine (CSpec.gAnd hc hn).bind fun m m' hm => ?_
  refine (CSpec.gXor hm hl).bind fun a a' ha => ?_
  refine (CSpec.gXor hn ha).bind fun b b' hb => ?_
  refine CSpec.pure ⟨?_, ?_⟩
  · convert ha using 1
    cases x <;> cases y <;> cases z <;> rfl
  · convert hb using 1
    cases x <;> cases y <;> cases z <;> rfl

theorem map_zip_fst_ite (t : Bool) {ps qs : List Bool} (h : ps.length = qs.length) :
    (ps.zip qs).map (fun pq => if t then pq.2 else pq.1) = if t then qs else ps := by
  cases t
  · simpa using List.map_fst_zip (by omega)
  · simpa using List.map_snd_zip (by omega)

theorem set_getElem?_self {α : Type} {l : List α} {i : Nat} {x : α} (h : l[i]? = some x) : l.set i x = l := by
  obtain ⟨hi, rfl⟩ := List.getElem?_eq_some_iff.1 h
  simp

theorem spec_compareExchange {xs xs' ps n} (h : All3 (All3 E) xs xs' ps) (hn : ∀ p ∈ ps, p.length = n) (h0 : 0 < n)
    {a b : Nat} (hab : a ≠ b) (ha : a < ps.length) (hb : b < ps.length) :
    CSpec E (fun r r' => All3 (All3 E) r r' (stepBits ps (a, b))) (compareExchange n xs (a, b))
      (compareExchange n xs' (a, b)) := by
  obtain ⟨x, x', hx, hx', hxx⟩ := h.get (List.getElem?_eq_getElem ha)
  obtain ⟨y, y', hy, hy', hyy⟩ := h.get (List.getElem?_eq_getElem hb)
  have l1 := hn _ (List.getElem_mem ha)
  have l2 := hn _ (List.getElem_mem hb)
  unfold compareExchange stepBits
  simp only [hx, hx', hy, hy', List.getElem?_eq_getElem ha, List.getElem?_eq_getElem hb]
  have n1 : ¬ (x.length ≠ n ∨ y.length ≠ n) := by rw [hxx.len, hyy.len, l1, l2]; simp
  have n2 : ¬ (x'.length ≠ n ∨ y'.length ≠ n) := by rw [hxx.len', hyy.len', l1, l2]; simp
  rw [if_neg n1, if_neg n2]
  refine (spec_unsignedGt hxx hyy (by omega) (by intro e; rw [e] at l1; simp at l1; omega)).bind fun c c' hc => ?_
  refine (CSpec.mapM (S := fun s s' (t : Bool × Bool) => E s.1 s'.1 t.1 ∧ E s.2 s'.2 t.2)
    (fun (pq : Bool × Bool) => (if decide (val ps[b] < val ps[a]) then pq.2 else pq.1,
      if decide (val ps[b] < val ps[a]) then pq.1 else pq.2)) ?_ (hxx.zip hyy)).bind fun s s' hs => ?_
  · rintro ⟨_, _⟩ ⟨_, _⟩ ⟨_, _⟩ ⟨k1, k2⟩
    exact spec_cmuxBoth hc k1 k2
  · have hlen : ps[a].length = ps[b].length := by omega
    have e1 := hs.map (R' := E) (f := Prod.fst) (g := Prod.fst) (k := Prod.fst) fun _ _ _ h => h.1
    have e2 := hs.map (R' := E) (f := Prod.snd) (g := Prod.snd) (k := Prod.snd) fun _ _ _ h => h.2
    rw [List.map_map] at e1 e2
    have f1 := map_zip_fst_ite (decide (val ps[b] < val ps[a])) hlen
    have f2 := map_zip_fst_ite (!decide (val ps[b] < val ps[a])) hlen
    have g2 : (Prod.snd ∘ fun (pq : Bool × Bool) => (if decide (val ps[b] < val ps[a]) then pq.2 else pq.1,
      if decide (val ps[b] < val ps[a]) then pq.1 else pq.2)) =
        fun pq => if (!decide (val ps[b] < val ps[a])) then pq.2 else pq.1 := by
      funext pq
      by_cases hc : val ps[b] < val ps[a] <;> simp [hc]
    rw [g2, f2] at e2
    have g1 : (Prod.fst ∘ fun (pq : Bool × Bool) => (if decide (val ps[b] < val ps[a]) then pq.2 else pq.1,
      if decide (val ps[b] < val ps[a]) then pq.1 else pq.2)) =
        fun pq => if (decide (val ps[b] < val ps[a])) then pq.2 else pq.1 := rfl
    rw [g1, f1] at e1
    refine CSpec.pure ?_
    have := (h.set a e1).set b e2
    convert this using 1
    by_cases hc : val ps[b] < val ps[a]
    · simp [hc]
    · simp [hc]

theorem stepBits_perm (xs : List (List Bool)) (ab : Nat × Nat) : (stepBits xs ab).Perm xs := by
  unfold stepBits
  split
  · next x y hx hy =>
    split
    · obtain ⟨ha, rfl⟩ := List.getElem?_eq_some_iff.1 hx
      obtain ⟨hb, rfl⟩ := List.getElem?_eq_some_iff.1 hy
      exact List.set_set_perm ha hb
    · exact .refl _
  · exact .refl _

/-- The numbers, as an infinite sequence. -/
def nums (xs : List (List Bool)) (i : Nat) : WithTop Nat :=
  match xs[i]? with
  | some x => (val x : Nat)
  | none => ⊤

theorem nums_stepBits {xs : List (List Bool)} {ab : Nat × Nat} (hab : ab.1 ≠ ab.2) (ha : ab.1 < xs.length)
    (hb : ab.2 < xs.length) : nums (stepBits xs ab) = Net.cas (nums xs) ab := by
  have na : nums xs ab.1 = (val xs[ab.1] : Nat) := by simp [nums, ha]
  have nb : nums xs ab.2 = (val xs[ab.2] : Nat) := by simp [nums, hb]
  unfold stepBits
  simp only [List.getElem?_eq_getElem ha, List.getElem?_eq_getElem hb]
  funext i
  unfold Net.cas
  simp only [Function.update_apply, na, nb]
  split
  · next hlt =>
    rw [min_eq_right (by exact_mod_cast hlt.le), max_eq_left (by exact_mod_cast hlt.le)]
    by_cases h2 : i = ab.2
    · subst h2; simp [nums, hb]
    · by_cases h1 : i = ab.1
      · subst h1
        rw [if_neg h2, if_pos rfl]
        simp [nums, List.getElem?_set, h2, Ne.symm h2, ha]
      · rw [if_neg h2, if_neg h1]
        simp [nums, List.getElem?_set, Ne.symm h2, Ne.symm h1]
  · next hlt =>
    rw [min_eq_left (by exact_mod_cast (not_lt.1 hlt)), max_eq_right (by exact_mod_cast (not_lt.1 hlt))]
    by_cases h2 : i = ab.2
    · subst h2; simp [nb]
    · by_cases h1 : i = ab.1
      · subst h1; simp [na, h2]
      · simp [h1, h2]

theorem foldl_stepBits {L : List (Nat × Nat)} (xs : List (List Bool))
    (hL : ∀ ab ∈ L, ab.1 ≠ ab.2 ∧ ab.1 < xs.length ∧ ab.2 < xs.length) :
    (L.foldl stepBits xs).Perm xs ∧ nums (L.foldl stepBits xs) = Net.run L (nums xs) := by
  induction L generalizing xs with
  | nil => exact ⟨.refl _, rfl⟩
  | cons ab L ih =>
    obtain ⟨h1, h2, h3⟩ := hL ab (by simp)
    have hp := stepBits_perm xs ab
    obtain ⟨i1, i2⟩ := ih (stepBits xs ab) fun cd hcd => by
      rw [hp.length_eq]; exact hL cd (by simp [hcd])
    refine ⟨i1.trans hp, ?_⟩
    show nums (L.foldl stepBits (stepBits xs ab)) = Net.run L (Net.cas (nums xs) ab)
    rw [i2, nums_stepBits h1 h2 h3]

theorem sorted_foldl (xs : List (List Bool)) :
    ((sortPairs xs.length).foldl stepBits xs).Perm xs ∧
      ((sortPairs xs.length).foldl stepBits xs).Pairwise fun x y => val x ≤ val y := by
  obtain ⟨h1, h2⟩ := foldl_stepBits (L := sortPairs xs.length) xs fun ab hab => by
    have := Net.pairs_lt (a := ab.1) (b := ab.2) hab
    omega
  refine ⟨h1, ?_⟩
  rw [List.pairwise_iff_getElem]
  intro i j hi hj hij
  have := Net.sorts (f := nums xs) (len := xs.length) (fun k hk => by simp [nums, hk]) hij.le
  rw [← h2] at this
  simpa [nums, hi, hj] using this

theorem spec_foldCompare {n : Nat} (h0 : 0 < n) {L : List (Nat × Nat)} {xs xs' ps} (h : All3 (All3 E) xs xs' ps)
    (hn : ∀ p ∈ ps, p.length = n) (hL : ∀ ab ∈ L, ab.1 ≠ ab.2 ∧ ab.1 < ps.length ∧ ab.2 < ps.length) :
    CSpec E (fun r r' => All3 (All3 E) r r' (L.foldl stepBits ps)) (L.foldlM (compareExchange n) xs)
      (L.foldlM (compareExchange n) xs') := by
  induction L generalizing xs xs' ps with
  | nil => exact CSpec.pure h
  | cons ab L ih =>
    obtain ⟨h1, h2, h3⟩ := hL ab (by simp)
    simp only [List.foldlM_cons, List.foldl_cons]
    have hp := stepBits_perm ps ab
    refine (spec_compareExchange (a := ab.1) (b := ab.2) h hn h0 h1 h2 h3).bind fun r r' hr => ?_
    exact ih hr (fun p hp' => hn p (hp.mem_iff.1 hp')) fun cd hcd => by
      rw [hp.length_eq]; exact hL cd (by simp [hcd])

theorem spec_batcherInner {n : Nat} (h0 : 0 < n) {xs xs' ps} (h : All3 (All3 E) xs xs' ps)
    (hn : ∀ p ∈ ps, p.length = n) (hne : ps ≠ []) :
    CSpec E (fun r r' => All3 (All3 E) r r' ((sortPairs ps.length).foldl stepBits ps)) (batcherInner xs)
      (batcherInner xs') := by
  have l1 := h.len
  have l2 := h.len'
  have hL : ∀ ab ∈ sortPairs ps.length, ab.1 ≠ ab.2 ∧ ab.1 < ps.length ∧ ab.2 < ps.length := fun ab hab => by
    have := Net.pairs_lt (a := ab.1) (b := ab.2) hab
    omega
  have hs := spec_foldCompare h0 h hn hL
  cases h with
  | nil => exact absurd rfl hne
  | cons h h' =>
    unfold batcherInner
    simp only
    have := hn _ (List.mem_cons_self)
    rw [l1, l2, h.len, h.len', this]
    exact hs

theorem chunks_nil {α : Type} (w : Nat) : chunks w ([] : List α) = [] := by
  rw [chunks]; simp

theorem chunks_eq {α : Type} {w : Nat} (hw : 0 < w) {l : List α} (hl : 0 < l.length) :
    chunks w l = l.take w :: chunks w (l.drop w) := by
  rw [chunks, dif_neg]
  rintro (e | e)
  · omega
  · rw [e] at hl; simp at hl

theorem all3_chunks {w : Nat} (hw : 0 < w) {xs : List I} {xs' : List J} {ps : List (List Bool)}
    (hl : ∀ p ∈ ps, p.length = w) (h : All3 E xs xs' ps.flatten) :
    All3 (All3 E) (chunks w xs) (chunks w xs') ps := by
  induction ps generalizing xs xs' with
  | nil =>
    cases h
    rw [chunks_nil, chunks_nil]
    exact .nil
  | cons p ps ih =>
    have hp := hl p (by simp)
    have l1 := h.len
    have l2 := h.len'
    simp only [List.flatten_cons, List.length_append] at l1 l2
    have ht := h.take w
    have hd := h.drop w
    simp only [List.flatten_cons, ← hp, List.take_left, List.drop_left] at ht hd
    rw [chunks_eq hw (l := xs) (by omega), chunks_eq hw (l := xs') (by omega)]
    rw [hp] at ht hd
    exact .cons ht (ih (fun q hq => hl q (by simp [hq])) hd)

theorem CSpec.mapM' {α β γ δ ν ω : Type} {R : α → β → ν → Prop} {S : γ → δ → ω → Prop} {f : α → Circ I γ}
    {f' : β → Circ J δ} (k : ν → ω) {as : List α} {bs : List β} {ns : List ν}
    (hf : ∀ a b n, n ∈ ns → R a b n → CSpec E (fun r r' => S r r' (k n)) (f a) (f' b)) (h : All3 R as bs ns) :
    CSpec E (fun r r' => All3 S r r' (ns.map k)) (as.mapM f) (bs.mapM f') :=
  CSpec.mapM (R := fun a b n => R a b n ∧ n ∈ ns) k (fun a b n h => hf a b n h.2 h.1) (h.with_mem fun _ h => h)

theorem All3.flatten' {xs : List (List I)} {xs' : List (List J)} {ps : List (List Bool)}
    (h : All3 (All3 E) xs xs' ps) : All3 E xs.flatten xs'.flatten ps.flatten := by
  induction h with
  | nil => exact .nil
  | cons h _ ih => exact h.append ih

/-- The keys that are sorted. -/
def sortKeys (p bitlen : Nat) (as bs : List (List Bool)) : List (List Bool) :=
  (as.zip bs).map fun ab => uintToBits ((val ab.1 + val ab.2) % p % 2 ^ bitlen) bitlen

theorem spec_batcherSort {p w bitlen : Nat} (hp : p % 2 = 1) (hlt : p < 2 ^ w) (h0 : 0 < bitlen) (hbw : bitlen ≤ w)
    {as bs cs : List (List Bool)} (hne : as ≠ []) (l1 : as.length = bs.length) (l2 : as.length = cs.length)
    (ha : ∀ x ∈ as, x.length = w ∧ val x < p) (hb : ∀ x ∈ bs, x.length = w ∧ val x < p)
    (hc : ∀ x ∈ cs, x.length = w ∧ val x < p) {A A' B B' C C'} (hA : All3 E A A' as.flatten)
    (hB : All3 E B B' bs.flatten) (hC : All3 E C C' cs.flatten) :
    CSpec E (fun r r' => All3 E r r' ((((sortPairs (sortKeys p bitlen as bs).length).foldl stepBits
        (sortKeys p bitlen as bs)).zip cs).map fun sc => uintToBits ((val sc.1 + val sc.2) % p) w).flatten)
      (batcherSort p w A B C bitlen) (batcherSort p w A' B' C' bitlen) := by
  have hw : 0 < w := by omega
  have hppos : 0 < p := by omega
  unfold batcherSort
  refine (CSpec.mapM' (S := All3 E) (fun ab => uintToBits ((val ab.1 + val ab.2) % p % 2 ^ bitlen) bitlen) ?_
    ((all3_chunks hw (fun x h => (ha x h).1) hA).zip (all3_chunks hw (fun x h => (hb x h).1) hB))).bind
    fun X X' hX => ?_
  · rintro ⟨a, b⟩ ⟨a', b'⟩ ⟨x, y⟩ hm ⟨h1, h2⟩
    have mx := ha x (List.of_mem_zip hm).1
    have my := hb y (List.of_mem_zip hm).2
    simp only at h1 h2 ⊢
    refine (spec_adderModPOut hp h1 h2 (by omega) (by rw [mx.1]; exact hlt) mx.2 my.2 bitlen).mono fun r r' hr => ?_
    obtain ⟨ss, hss, e1, e2⟩ := hr
    have : ss = uintToBits ((val x + val y) % p % 2 ^ bitlen) bitlen := by
      apply val_inj
      · rw [e1, length_uintToBits, mx.1]; omega
      · rw [e2, val_uintToBits, Nat.mod_mod]
    rwa [← this]
  · change All3 (All3 E) X X' (sortKeys p bitlen as bs) at hX
    have hk : ∀ x ∈ sortKeys p bitlen as bs, x.length = bitlen ∧ val x < p := fun x hx => by
      unfold sortKeys at hx
      obtain ⟨ab, -, rfl⟩ := List.mem_map.1 hx
      refine ⟨length_uintToBits _ _, ?_⟩
      rw [val_uintToBits, Nat.mod_mod]
      exact (Nat.mod_le _ _).trans_lt (Nat.mod_lt _ hppos)
    have hkl : (sortKeys p bitlen as bs).length = as.length := by simp [sortKeys, l1]
    have hkne : sortKeys p bitlen as bs ≠ [] := by
      intro e
      rw [e] at hkl
      exact hne (List.eq_nil_of_length_eq_zero hkl.symm)
    refine (spec_batcherInner h0 hX (fun x hx => (hk x hx).1) hkne).bind fun Y Y' hY => ?_
    obtain ⟨hperm, -⟩ := sorted_foldl (sortKeys p bitlen as bs)
    refine (CSpec.mapM' (S := All3 E) (fun sc => uintToBits ((val sc.1 + val sc.2) % p) w) ?_
      (hY.zip (all3_chunks hw (fun x h => (hc x h).1) hC))).bind fun Z Z' hZ => ?_
    · rintro ⟨a, b⟩ ⟨a', b'⟩ ⟨x, y⟩ hm ⟨h1, h2⟩
      have mx := hk x (hperm.mem_iff.1 (List.of_mem_zip hm).1)
      have my := hc y (List.of_mem_zip hm).2
      simp only at h1 h2 ⊢
      have := spec_composeFieldElement hp h1 h2 (by omega) (by rw [my.1]; exact hlt) mx.2 my.2
      rw [my.1] at this
      refine this.mono fun r r' hr => ?_
      obtain ⟨ss, hss, e1, e2⟩ := hr
      have : ss = uintToBits ((val x + val y) % p) w := by
        apply val_inj
        · rw [e1, length_uintToBits]
        · rw [e2, val_uintToBits, Nat.mod_eq_of_lt ((Nat.mod_lt _ hppos).trans hlt)]
      rwa [← this]
    · exact CSpec.pure hZ.flatten'

end

end Verif.Yao
