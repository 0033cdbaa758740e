import Verif.Honk.LookupLemmas
import Mathlib.Algebra.Field.Rat
import Mathlib.Data.Rat.Cast.CharZero

/-!
# The lookup argument of UltraHonk (C107, C108)
-/

namespace Verif.Honk

variable {F : Type} [Field F] [DecidableEq F]

/-! ## C107: completeness -/

/-- If the rows that look something up look up, in some order, what the gates of the tables read, then the columns that the prover
computes (the tables, the counts and tags of the reads, and the inverses) satisfy the three lookup relations, for every challenge
for which no denominator is zero. -/
theorem C107_complete {toNat : F → Nat} {tables : List (LookupTable F)} {n : Nat} {r : Reads F} {cols : Nat → F × F × F × F}
    (hr : readCounts toNat tables n = .ok r) (hc : tableColumns tables n = .ok cols) {p : Params F} {table : Col → Nat → F}
    (htable : ∀ i < n, entry table i = cols i)
    (hcounts : table .lookupReadCounts = r.counts) (htags : table .lookupReadTags = r.tags)
    (hinv : table .lookupInverses = lookupInverses p.beta p.gamma table)
    (hq : ∀ i < n, table .qLookup i = 0 ∨ table .qLookup i = 1)
    (hreads : (((List.range n).filter fun i => table .qLookup i = 1).map fun i => some (lookedUp table i)).Perm
      (tables.flatMap fun t => t.gates.map (t.answer toNat)))
    (hden : ∀ i < n, table .qLookup i = 1 ∨ table .lookupReadTags i = 1 →
      readTerm p (fun c => table c i) ≠ 0 ∧ writeTerm p (fun c => table c i) ≠ 0) :
    LookupRelations p n table :=
  lookup_complete hr hcounts htags hinv hq
    (fun _ hp => places_entry hp hc htable (by simpa only [List.map_map, Function.comp_def] using hreads)) hden

/-! ## C108: soundness -/

/-- Let the wires, the selectors, the tables, the counts and the tags be fixed.  Apart from at most `3n²` values of the first
challenge and at most `4n` values of the second one, no column of inverses satisfies the three lookup relations unless every row
that looks something up looks up an entry of the tables. -/
theorem C108_sound {n : Nat} (hn : Distinct F (n + 1)) (table : Col → Nat → F)
    (hq : ∀ i < n, table .qLookup i = 0 ∨ table .qLookup i = 1) :
    ∃ Bβ : Finset F, Bβ.card ≤ 3 * n ^ 2 ∧ ∀ β ∉ Bβ, ∃ Bγ : Finset F, Bγ.card ≤ 4 * n ∧ ∀ γ ∉ Bγ,
      ∀ (p : Params F) (inverses : Nat → F), p.beta = β → p.gamma = γ →
        LookupRelations p n (Function.update table .lookupInverses inverses) →
        ∀ i < n, table .qLookup i = 1 → ∃ j < n, entry table j = lookedUp table i := by
  refine ⟨lookupBadβ n table, lookupBadβ_card n table, fun β hβ => ?_⟩
  let a := fun i => comb β (lookedUp table i)
  let t := fun i => comb β (entry table i)
  let q := fun i => decide (table .qLookup i = 1)
  let m := fun i => if table .qLookup i = 1 ∨ table .lookupReadTags i = 1 then table .lookupReadCounts i else 0
  refine ⟨lookupBadγ n q a t m, lookupBadγ_card n q a t m, ?_⟩
  rintro γ hγ p inv rfl rfl ⟨h0, h2, h1⟩ i hi hqi
  set tab := Function.update table Col.lookupInverses inv with htab
  have hcol : ∀ c, c ≠ Col.lookupInverses → tab c = table c := fun c hc => Function.update_of_ne hc _ _
  have el : ∀ i, lookedUp tab i = lookedUp table i := fun i => by
    rw [htab]; rfl
  have ee : ∀ i, entry tab i = entry table i := fun i => by
    rw [htab]; rfl
  have hne : ∀ v ∈ poles n a t, v + p.gamma ≠ 0 := fun v hv e =>
    hγ (Finset.mem_union_right _ (Finset.mem_image.2 ⟨v, hv, by linear_combination -e⟩))
  have hsum : ∑ i ∈ Finset.range n with q i, (a i + p.gamma)⁻¹ - ∑ j ∈ Finset.range n, m j * (t j + p.gamma)⁻¹ = 0 := by
    rw [Finset.sum_filter, ← Finset.sum_sub_distrib]
    refine Eq.trans ?_ h1
    refine Finset.sum_congr rfl fun k hk => ?_
    have hk' := Finset.mem_range.1 hk
    have ha : a k + p.gamma ≠ 0 := hne _ (Finset.mem_union_left _ (Finset.mem_image_of_mem _ hk))
    have ht : t k + p.gamma ≠ 0 := hne _ (Finset.mem_union_right _ (Finset.mem_image_of_mem _ hk))
    have g0 := h0 k hk'
    have g2 := h2 k hk'
    rw [lookup0_eq, el, ee, hcol .lookupReadTags (by decide), hcol .qLookup (by decide)] at g0
    rw [lookup2_eq, hcol .lookupReadTags (by decide)] at g2
    rw [lookup1_eq, el, ee, hcol .qLookup (by decide), hcol .lookupReadCounts (by decide)]
    change (if decide (table .qLookup k = 1) = true then _ else _) - m k * _ = _
    change (a k + p.gamma) * (t k + p.gamma) * _ - _ = 0 at g0
    change _ = _ * ((t k + p.gamma) * _) - _ * ((a k + p.gamma) * _)
    have htag : table .lookupReadTags k = 0 ∨ table .lookupReadTags k = 1 :=
      (mul_eq_zero.1 g2).imp id fun e => by linear_combination e
    have hactive : ∀ z : F, (a k + p.gamma) * (t k + p.gamma) * z - 1 = 0 → z = (a k + p.gamma)⁻¹ * (t k + p.gamma)⁻¹ := by
      intro z hz
      field_simp
      linear_combination hz
    rcases hq k hk' with hq0 | hq1
    · rw [hq0, if_neg (by simp)]
      rcases htag with ht0 | ht1
      · rw [ht0, hq0] at g0
        have hm : m k = 0 := if_neg (by rw [hq0, ht0]; simp)
        have : tab .lookupInverses k = 0 := by
          have : (a k + p.gamma) * (t k + p.gamma) * tab .lookupInverses k = 0 := by linear_combination g0
          exact (mul_eq_zero.1 this).resolve_left (mul_ne_zero ha ht)
        rw [hm, this]; ring
      · rw [ht1, hq0] at g0
        have hm : m k = table .lookupReadCounts k := if_pos (Or.inr ht1)
        rw [hm, hactive (tab .lookupInverses k) (by linear_combination g0)]
        field_simp
        ring
    · rw [hq1, if_pos (by simp)]
      rw [hq1] at g0
      have hm : m k = table .lookupReadCounts k := if_pos (Or.inl hq1)
      rw [hm, hactive (tab .lookupInverses k) (by linear_combination g0)]
      field_simp
  obtain ⟨j, hj, hji⟩ := pole_mem hn hγ hsum hi (decide_eq_true hqi)
  exact ⟨j, hj, (comb_inj hβ hi hj hji.symm).symm⟩

/-! ## An example -/

namespace LookupDemo

/-- Two tables with three reads; the second table has an index map and two keys. -/
def tables : List (LookupTable ℚ) :=
  [⟨[(0, 0, 0), (1, 1, 2), (2, 4, 6)], 0, false, 0, false, [(2, 0)]⟩,
    ⟨[(50, 2, 3), (61, 4, 9)], 1, true, 10, true, [(6, 1), (6, 1)]⟩]

/-- The representative. -/
def toNat (x : ℚ) : Nat := x.num.toNat

/-- The counts. -/
def reads : Reads ℚ := match readCounts toNat tables 8 with
  | .ok r => r
  | .error _ => ⟨fun _ => 0, fun _ => 0⟩

/-- The table of the prover: rows 1 and 3 use the next row, row 2 does not. -/
def base : Col → Nat → ℚ
  | .wl => fun i => [0, 66, 61, 81, 5, 0, 0, 0].getD i 0
  | .wlShift => fun i => [0, 66, 61, 81, 5, 0, 0, 0].getD (i + 1) 0
  | .wr => fun i => [0, 4, 4, 4, 0, 0, 0, 0].getD i 0
  | .wrShift => fun i => [0, 4, 4, 4, 0, 0, 0, 0].getD (i + 1) 0
  | .wo => fun i => [0, 6, 9, 9, 0, 0, 0, 0].getD i 0
  | .woShift => fun i => [0, 6, 9, 9, 0, 0, 0, 0].getD (i + 1) 0
  | .qr => fun i => [0, -64 / 61, 0, -4, 0, 0, 0, 0].getD i 0
  | .qo => fun i => [0, 0, 1, 1, 0, 0, 0, 0].getD i 0
  | .qLookup => fun i => [0, 1, 1, 1, 0, 0, 0, 0].getD i 0
  | .table1 => fun i => [0, 1, 2, 50, 61, 0, 0, 0].getD i 0
  | .table2 => fun i => [0, 1, 4, 2, 4, 0, 0, 0].getD i 0
  | .table3 => fun i => [0, 2, 6, 3, 9, 0, 0, 0].getD i 0
  | .table4 => fun i => [0, 0, 0, 1, 1, 0, 0, 0].getD i 0
  | .lookupReadCounts => reads.counts
  | .lookupReadTags => reads.tags
  | _ => fun _ => 0

/-- With the inverses. -/
def table : Col → Nat → ℚ := Function.update base .lookupInverses (lookupInverses 3 11 base)

/-- The parameters. -/
def params : Params ℚ := ⟨0, 0, 0, 3, 11, 0, 0, 0, 0, 0, 0⟩

theorem reads_ok : readCounts toNat tables 8 = .ok reads := by
  have h : (readCounts toNat tables 8).isOk = true := by decide +kernel
  rw [reads]
  cases hc : readCounts toNat tables 8 with
  | ok k => rfl
  | error e => rw [hc] at h; cases h

/-- The hypotheses of C107 hold of the example. -/
theorem relations : LookupRelations params 8 table :=
  C107_complete reads_ok (cols := fun i => (tableRows tables).getD i 0) (by rw [tableColumns, if_pos (by decide +kernel)])
    (by decide +kernel) rfl rfl rfl (by decide +kernel) (by decide +kernel) (by decide +kernel)

theorem distinct : Distinct ℚ 9 := fun i _ j _ h => by exact_mod_cast h

/-- The hypotheses of C108 hold of the example. -/
example : ∃ Bβ : Finset ℚ, Bβ.card ≤ 3 * 8 ^ 2 ∧ ∀ β ∉ Bβ, ∃ Bγ : Finset ℚ, Bγ.card ≤ 4 * 8 ∧ ∀ γ ∉ Bγ,
      ∀ (p : Params ℚ) (inverses : Nat → ℚ), p.beta = β → p.gamma = γ →
        LookupRelations p 8 (Function.update table .lookupInverses inverses) →
        ∀ i < 8, table .qLookup i = 1 → ∃ j < 8, entry table j = lookedUp table i :=
  C108_sound distinct table (by decide +kernel)

/-- A row that looks up something else. -/
def wrong : Col → Nat → ℚ := Function.update table .wo fun i => [0, 7, 9, 9, 0, 0, 0, 0].getD i 0

/-- Apart from few challenges, no inverses satisfy the relations for it. -/
example : ∃ Bβ : Finset ℚ, Bβ.card ≤ 192 ∧ ∀ β ∉ Bβ, ∃ Bγ : Finset ℚ, Bγ.card ≤ 32 ∧ ∀ γ ∉ Bγ,
      ∀ (p : Params ℚ) (inverses : Nat → ℚ), p.beta = β → p.gamma = γ →
        ¬ LookupRelations p 8 (Function.update wrong .lookupInverses inverses) := by
  obtain ⟨Bβ, h1, h2⟩ := C108_sound distinct wrong (by decide +kernel)
  refine ⟨Bβ, h1, fun β hβ => ?_⟩
  obtain ⟨Bγ, h3, h4⟩ := h2 β hβ
  refine ⟨Bγ, h3, fun γ hγ p inv e1 e2 hr => ?_⟩
  obtain ⟨j, hj, hji⟩ := h4 γ hγ p inv e1 e2 hr 1 (by omega) (by decide +kernel)
  have : ∀ j < 8, entry wrong j ≠ lookedUp wrong 1 := by decide +kernel
  exact this j hj hji

end LookupDemo

end Verif.Honk
