import Verif.Honk.OinkRun
import Mathlib.Algebra.Field.Rat
import Mathlib.Data.Rat.Cast.CharZero

/-!
# The permutation argument of UltraHonk (C105, C106)
-/

namespace Verif.Honk

variable {F : Type} [Field F] [DecidableEq F]

/-- The four wires of a table. -/
def wiresOf (table : Col → Nat → F) : Fin 4 → Nat → F := ![table .wl, table .wr, table .wo, table .w4]

/-- The table has the permutation columns of the proving key, and the shifted column is the column `zPerm` one row later. -/
structure HasColumns (key : Key F) (table : Col → Nat → F) : Prop where
  sigma : ![table .sigma1, table .sigma2, table .sigma3, table .sigma4] = key.sigma
  id : ![table .id1, table .id2, table .id3, table .id4] = key.id
  first : table .lagrangeFirst = key.lagrangeFirst
  last : table .lagrangeLast = key.lagrangeLast
  shift : ∀ i < key.size, table .zPermShift i = if i + 1 < key.size then table .zPerm (i + 1) else 0

omit [DecidableEq F] in
theorem perm0_eq {key : Key F} {table : Col → Nat → F} (h : HasColumns key table) (p : Params F) (i : Nat) :
    Subrel.perm0.value F p (fun c => table c i) =
      (table .zPerm i + key.lagrangeFirst i) * rowProduct p.beta p.gamma (wiresOf table) key.id i -
      (table .zPermShift i + key.lagrangeLast i * p.publicInputDelta) * rowProduct p.beta p.gamma (wiresOf table) key.sigma i := by
  rw [← h.sigma, ← h.id, ← h.first, ← h.last]
  rfl

/-! ## C105: completeness -/

omit [DecidableEq F] in
/-- The proving key has the wires of the assignment: the wires carry the values of the variables, and the public inputs are the
values of the public variables. -/
theorem C105_wires {c : Builder F} {key : Key F} (h : createKey c = .ok key) :
    (∀ j r v, c.at? j r = some v → key.wires j r = c.vars.getD (c.real v) 0) ∧
    key.publicInputs = c.inputs.map fun v => c.vars.getD (c.real v) 0 := by
  obtain ⟨s, d, hk⟩ := createKey_ok h
  have h1 : ∀ j r v, c.at? j r = some v → key.wires j r = c.vars.getD (c.real v) 0 := by
    intro j r v hv
    rw [List.getD_eq_getElem?_getD, hk.wires j r v hv]; rfl
  refine ⟨h1, ?_⟩
  rw [hk.publics]
  refine List.ext_getElem (by simp) fun i hi1 hi2 => ?_
  simp only [List.length_map, List.length_range] at hi1
  rw [List.getElem_map, List.getElem_map, List.getElem_range]
  refine h1 1 (i + 1) _ ?_
  rw [Builder.at?, if_neg (by omega), Nat.add_sub_cancel, Builder.rows, List.getElem?_append_left (by simpa using hi1),
    List.getElem?_map, List.getElem?_eq_getElem hi1]
  rfl

/-- The prover of the permutation argument does not panic. -/
theorem C105_runs {c : Builder F} {key : Key F} (h : createKey c = .ok key) (hne : c.rows ≠ []) (w : Fin 4 → Nat → F) (β γ : F) :
    ∃ z, grandProduct key w β γ = .ok z := by
  obtain ⟨s, d, hk⟩ := createKey_ok h
  obtain ⟨z, hz, -⟩ := grandProduct_ok hk hne w β γ
  exact ⟨z, hz⟩

/-- If the wires satisfy the copy constraints of the circuit, then the column that the prover computes satisfies both
permutation relations in every row of the table, for every challenge for which no factor of a denominator is zero. -/
theorem C105_complete {c : Builder F} {key : Key F} (h : createKey c = .ok key) (hne : c.rows ≠ []) {p : Params F}
    {table : Col → Nat → F} (ht : HasColumns key table) {pub : List F} {val : Nat → F}
    (ha : Assigned c (wiresOf table) pub val)
    (hz : grandProduct key (wiresOf table) p.beta p.gamma = .ok (table .zPerm))
    (hδ : publicInputDelta p.beta p.gamma pub key.publicOffset = .ok p.publicInputDelta)
    (hden : ∀ i, 1 ≤ i → i < c.rows.length → ∀ j, wiresOf table j i + key.sigma j i * p.beta + p.gamma ≠ 0) :
    ∀ i < key.size, Subrel.perm0.value F p (fun c => table c i) = 0 ∧ Subrel.perm1.value F p (fun c => table c i) = 0 := by
  obtain ⟨s, d, hk⟩ := createKey_ok h
  obtain ⟨z, hz', z0, z1, zi, zr⟩ := grandProduct_ok hk hne (wiresOf table) p.beta p.gamma
  have hzt : table .zPerm = z := Except.ok.inj (hz.symm.trans hz')
  have hpub : pub.length = c.inputs.length := by rw [← ha.publics, List.length_map]
  rw [hk.offset] at hδ
  obtain ⟨hpd, hδ⟩ := delta_ok hδ
  have hprod : upTo (rowProduct p.beta p.gamma (wiresOf table) key.id) c.rows.length * pubDen p.beta p.gamma pub =
      upTo (rowProduct p.beta p.gamma (wiresOf table) key.sigma) c.rows.length * pubNum p.beta p.gamma pub := by
    rw [← factors_idList hk p.beta p.gamma (wiresOf table) pub hpub, ← factors_sigmaList hk p.beta p.gamma (wiresOf table) pub hpub]
    exact ((perm_of_assigned ha hk.sigOk hk.idOk).map _).prod_eq
  have hN : 0 < c.rows.length := List.length_pos_of_ne_nil hne
  have hfin : c.finalActive = c.rows.length := Builder.finalActive_eq c hne
  have hsz := rows_le_dyadic c
  have hrow : ∀ i, 1 ≤ i → i < c.rows.length → rowProduct p.beta p.gamma (wiresOf table) key.sigma i ≠ 0 := fun i h1 h2 =>
    mul_ne_zero (mul_ne_zero (mul_ne_zero (hden i h1 h2 0) (hden i h1 h2 1)) (hden i h1 h2 2)) (hden i h1 h2 3)
  have hup : ∀ k, k < c.rows.length → upTo (rowProduct p.beta p.gamma (wiresOf table) key.sigma) k ≠ 0 := by
    intro k
    induction k with
    | zero => intro _; simp [upTo]
    | succ k ih =>
      intro hk'
      rw [upTo_succ]
      exact mul_ne_zero (ih (by omega)) (hrow _ (by omega) hk')
  have hzk : ∀ k, k < c.rows.length → z (k + 1) * upTo (rowProduct p.beta p.gamma (wiresOf table) key.sigma) k =
      upTo (rowProduct p.beta p.gamma (wiresOf table) key.id) k := by
    intro k hk'
    rcases Nat.eq_zero_or_pos k with rfl | hpos
    · rw [z1]; simp [upTo]
    · rw [zi k hpos hk', inv_mul_cancel_right₀ (hup k hk')]
  intro i hi
  have hsize := hk.size
  have hshift : table .zPermShift i = z (i + 1) := by
    rw [ht.shift i hi, hzt]
    split_ifs with hlt
    · rfl
    · exact (zr (i + 1) (by omega) (by omega)).symm
  rw [perm0_eq ht, hshift, hzt, hk.first, hk.last, hfin]
  refine ⟨?_, ?_⟩
  · rcases Nat.eq_zero_or_pos i with rfl | hpos
    · have e : rowProduct p.beta p.gamma (wiresOf table) key.id 0 = rowProduct p.beta p.gamma (wiresOf table) key.sigma 0 := by
        have h0 : ¬ 0 ∈ List.range' 1 c.rows.length := by rw [List.mem_range'_1]; omega
        simp only [rowProduct, hk.id, hk.sigma, if_neg h0]
      rw [Function.update_self, Function.update_of_ne (by omega), z0, z1, e]
      ring
    · rw [Function.update_of_ne (by omega : i ≠ 0)]
      by_cases hlast : i = c.rows.length
      · rw [hlast, Function.update_self, zr (c.rows.length + 1) (by omega) (by omega)]
        obtain ⟨m, hm⟩ : ∃ m, c.rows.length = m + 1 := ⟨c.rows.length - 1, by omega⟩
        have h1 := hzk m (by omega)
        have h2 := hup m (by omega)
        rw [hm] at hprod ⊢
        rw [upTo_succ, upTo_succ, ← hδ] at hprod
        rw [← h1] at hprod
        have : upTo (rowProduct p.beta p.gamma (wiresOf table) key.sigma) m * pubDen p.beta p.gamma pub *
            ((z (m + 1) + 0) * rowProduct p.beta p.gamma (wiresOf table) key.id (m + 1) -
              (0 + 1 * p.publicInputDelta) * rowProduct p.beta p.gamma (wiresOf table) key.sigma (m + 1)) = 0 := by
          linear_combination hprod
        rcases mul_eq_zero.1 this with h | h
        · exact absurd h (mul_ne_zero h2 hpd)
        · exact h
      · rw [Function.update_of_ne (by omega : i ≠ c.rows.length)]
        rcases Nat.lt_or_ge i c.rows.length with hlt | hge
        · have h1 := hzk i hlt
          have h3 := hzk (i - 1) (by omega)
          have h2 := hup (i - 1) (by omega)
          rw [Nat.sub_add_cancel hpos] at h3
          have e : i = (i - 1) + 1 := by omega
          have u1 : upTo (rowProduct p.beta p.gamma (wiresOf table) key.sigma) i =
              upTo (rowProduct p.beta p.gamma (wiresOf table) key.sigma) (i - 1) *
                rowProduct p.beta p.gamma (wiresOf table) key.sigma i := by
            conv_lhs => rw [e, upTo_succ]
            rw [← e]
          have u2 : upTo (rowProduct p.beta p.gamma (wiresOf table) key.id) i =
              upTo (rowProduct p.beta p.gamma (wiresOf table) key.id) (i - 1) *
                rowProduct p.beta p.gamma (wiresOf table) key.id i := by
            conv_lhs => rw [e, upTo_succ]
            rw [← e]
          rw [u1, u2, ← h3] at h1
          have : upTo (rowProduct p.beta p.gamma (wiresOf table) key.sigma) (i - 1) *
              ((z i + 0) * rowProduct p.beta p.gamma (wiresOf table) key.id i -
                (z (i + 1) + 0 * p.publicInputDelta) * rowProduct p.beta p.gamma (wiresOf table) key.sigma i) = 0 := by
            linear_combination -h1
          exact (mul_eq_zero.1 this).resolve_left h2
        · rw [zr (i + 1) (by omega) (by omega)]
          have : z i = 0 := by
            rcases Nat.lt_or_ge i 2 with h2 | h2
            · omega
            · exact zr i (by omega) h2
          rw [this]; ring
  · show table .lagrangeLast i * table .zPermShift i = 0
    rw [ht.last, hk.last, hfin, hshift]
    by_cases hlast : i = c.rows.length
    · rw [zr (i + 1) (by omega) (by omega), mul_zero]
    · rw [Function.update_of_ne hlast, zero_mul]

/-! ## C106: soundness -/

/-- Soundness of the permutation argument.  For all wires and public inputs there are few exceptional values of the first
challenge, and for each other value few exceptional values of the second challenge, so that otherwise: whatever the column
`zPerm` is, if it starts with zero and both permutation relations hold in every row, then the wires satisfy the copy constraints
of the circuit, with the public inputs that the verifier used for the delta. -/
theorem C106_sound {c : Builder F} {key : Key F} (h : createKey c = .ok key) (hne : c.rows ≠ []) {T : Nat}
    (hF : Distinct F (5 * 2 ^ 28 + T)) (htags : ∀ k ∈ c.used, c.tag k < T ∧ c.tauOf (c.tag k) < T)
    (w : Fin 4 → Nat → F) (pub : List F) (hpub : pub.length = c.inputs.length) :
    ∃ Bβ : Finset F, Bβ.card ≤ (10 * c.rows.length) ^ 2 ∧ ∀ β ∉ Bβ, ∃ Bγ : Finset F, Bγ.card ≤ 5 * c.rows.length + 4 ∧ ∀ γ ∉ Bγ,
      ∀ (p : Params F) (table : Col → Nat → F), p.beta = β → p.gamma = γ →
      publicInputDelta β γ pub key.publicOffset = .ok p.publicInputDelta →
      HasColumns key table → wiresOf table = w → table .zPerm 0 = 0 →
      (∀ i < key.size, Subrel.perm0.value F p (fun c => table c i) = 0 ∧ Subrel.perm1.value F p (fun c => table c i) = 0) →
      ∃ val, Assigned c w pub val := by
  obtain ⟨s, d, hk⟩ := createKey_ok h
  have hN : 0 < c.rows.length := List.length_pos_of_ne_nil hne
  have hfin : c.finalActive = c.rows.length := Builder.finalActive_eq c hne
  have hsz := rows_le_dyadic c
  have hsize := hk.size
  have hinp := Builder.inputs_le (c := c)
  have hlen : ∀ (g : Cell → F), (idList c (onCells w) (pubAt pub) g).length ≤ 5 * c.rows.length := by
    intro g
    rw [idList, Builder.places_fst]
    simp only [List.length_append, List.length_map, List.length_flatMap, List.length_cons, List.length_nil, List.map_const',
      List.sum_replicate, List.length_range', smul_eq_mul]
    omega
  have hlen' : ∀ (g : Cell → F), (sigmaList c (onCells w) (pubAt pub) g).length ≤ 5 * c.rows.length := by
    intro g
    rw [sigmaList, Builder.places_fst]
    simp only [List.length_append, List.length_map, List.length_flatMap, List.length_cons, List.length_nil, List.map_const',
      List.sum_replicate, List.length_range', smul_eq_mul]
    omega
  refine ⟨badβ (idList c (onCells w) (pubAt pub) fun x => (d x).value) (sigmaList c (onCells w) (pubAt pub) (sigmaValue c s)),
    (badβ_card _ _).trans (Nat.pow_le_pow_left (by have := hlen fun x => (d x).value; have := hlen' (sigmaValue c s); omega) 2),
    fun β hβ => ?_⟩
  refine ⟨badγ β (idList c (onCells w) (pubAt pub) fun x => (d x).value) (sigmaList c (onCells w) (pubAt pub) (sigmaValue c s)) ∪
    Finset.univ.image fun j : Fin 4 => -w j 0, ?_, fun γ hγ p table hpβ hpγ hδ ht hw hz0 hrel => ?_⟩
  · refine (Finset.card_union_le _ _).trans (Nat.add_le_add ((badγ_card _ _ _).trans (max_le (hlen _) (hlen' _))) ?_)
    exact Finset.card_image_le.trans (by simp)
  rw [Finset.mem_union, not_or] at hγ
  rw [hk.offset] at hδ
  obtain ⟨hpd, hδ⟩ := delta_ok hδ
  subst hpβ hpγ hw
  have hz1 : table .zPerm 1 = 1 := by
    have := (hrel 0 (by omega)).1
    rw [perm0_eq ht, hk.first, hk.last, hfin, Function.update_self, Function.update_of_ne (by omega), hz0, ht.shift 0 (by omega),
      if_pos (by omega)] at this
    have h0 : ¬ 0 ∈ List.range' 1 c.rows.length := by rw [List.mem_range'_1]; omega
    have e : rowProduct p.beta p.gamma (wiresOf table) key.id 0 = rowProduct p.beta p.gamma (wiresOf table) key.sigma 0 := by
      simp only [rowProduct, hk.id, hk.sigma, if_neg h0]
    have hne0 : rowProduct p.beta p.gamma (wiresOf table) key.sigma 0 ≠ 0 := by
      have hj : ∀ j : Fin 4, wiresOf table j 0 + key.sigma j 0 * p.beta + p.gamma ≠ 0 := by
        intro j hj
        rw [hk.sigma, if_neg h0, zero_mul, add_zero] at hj
        exact hγ.2 (Finset.mem_image.2 ⟨j, Finset.mem_univ _, by linear_combination -hj⟩)
      exact mul_ne_zero (mul_ne_zero (mul_ne_zero (hj 0) (hj 1)) (hj 2)) (hj 3)
    rw [e] at this
    have h2 : (1 - table .zPerm (0 + 1)) * rowProduct p.beta p.gamma (wiresOf table) key.sigma 0 = 0 := by
      linear_combination this
    exact (sub_eq_zero.1 ((mul_eq_zero.1 h2).resolve_right hne0)).symm
  have hstep : ∀ k, k < c.rows.length → upTo (rowProduct p.beta p.gamma (wiresOf table) key.id) k =
      table .zPerm (k + 1) * upTo (rowProduct p.beta p.gamma (wiresOf table) key.sigma) k := by
    intro k
    induction k with
    | zero => intro _; rw [hz1]; simp [upTo]
    | succ k ih =>
      intro hk'
      have := (hrel (k + 1) (by omega)).1
      rw [perm0_eq ht, hk.first, hk.last, hfin, Function.update_of_ne (by omega), Function.update_of_ne (by omega),
        ht.shift (k + 1) (by omega), if_pos (by omega)] at this
      rw [upTo_succ, upTo_succ, ih (by omega)]
      linear_combination upTo (rowProduct p.beta p.gamma (wiresOf table) key.sigma) k * this
  have hend : upTo (rowProduct p.beta p.gamma (wiresOf table) key.id) c.rows.length =
      p.publicInputDelta * upTo (rowProduct p.beta p.gamma (wiresOf table) key.sigma) c.rows.length := by
    obtain ⟨m, hm⟩ : ∃ m, c.rows.length = m + 1 := ⟨c.rows.length - 1, by omega⟩
    have h1 := (hrel c.rows.length (by omega)).1
    have h2 : table .lagrangeLast c.rows.length * table .zPermShift c.rows.length = 0 := (hrel c.rows.length (by omega)).2
    rw [ht.last, hk.last, hfin, Function.update_self, one_mul] at h2
    rw [perm0_eq ht, hk.first, hk.last, hfin, Function.update_of_ne (by omega), Function.update_self, h2] at h1
    have h3 := hstep m (by omega)
    rw [hm] at h1 ⊢
    rw [upTo_succ, upTo_succ, h3]
    linear_combination upTo (rowProduct p.beta p.gamma (wiresOf table) key.sigma) m * h1
  refine assigned_of_perm (T := T) hF (by have := hk.small; omega) htags hpub hk.sigOk hk.idOk (perm_of_factors ?_ hβ hγ.1)
  rw [factors_idList hk _ _ _ _ hpub, factors_sigmaList hk _ _ _ _ hpub, hend, ← hδ]
  ring

/-! ## An example -/

namespace OinkDemo

/-- The field of the example.  It has to have more than `5 * 2 ^ 28` elements. -/
abbrev P := ℚ

/-- A circuit with a public input, three gates in two blocks, a copy constraint and two pairs of tagged variables. -/
def demo : Builder P where
  inputs := [1]
  zeroIdx := 0
  gates := [[![1, 2, 3, 0], ![4, 5, 1, 0]], [], [![6, 7, 2, 2]]]
  vars := [0, 7, 5, 9, 5, 6, 6, 5]
  realIndex := [0, 1, 2, 3, 2, 5, 6, 7]
  tags := [0, 0, 1, 0, 0, 1, 2, 2]
  tau := [(0, 0), (1, 2), (2, 1)]
  tablesSize := 3

/-- The key of the circuit. -/
def demoKey : Key P := match createKey demo with
  | .ok k => k
  | .error _ => ⟨0, 0, ⟨[], [], 0⟩, fun _ _ => 0, fun _ _ => 0, fun _ _ => 0, fun _ => 0, fun _ => 0, [], 0⟩

theorem demo_ok : createKey demo = .ok demoKey := by
  have h : (createKey demo).isOk = true := by decide +kernel
  rw [demoKey]
  cases hc : createKey demo with
  | ok k => rfl
  | error e => rw [hc] at h; cases h

/-- The column of the prover. -/
def demoZ : Nat → P := match grandProduct demoKey demoKey.wires 3 11 with
  | .ok z => z
  | .error _ => fun _ => 0

/-- The table of the prover. -/
def demoTable : Col → Nat → P
  | .wl => demoKey.wires 0
  | .wr => demoKey.wires 1
  | .wo => demoKey.wires 2
  | .w4 => demoKey.wires 3
  | .sigma1 => demoKey.sigma 0
  | .sigma2 => demoKey.sigma 1
  | .sigma3 => demoKey.sigma 2
  | .sigma4 => demoKey.sigma 3
  | .id1 => demoKey.id 0
  | .id2 => demoKey.id 1
  | .id3 => demoKey.id 2
  | .id4 => demoKey.id 3
  | .lagrangeFirst => demoKey.lagrangeFirst
  | .lagrangeLast => demoKey.lagrangeLast
  | .zPerm => demoZ
  | .zPermShift => fun i => if i + 1 < demoKey.size then demoZ (i + 1) else 0
  | _ => fun _ => 0

theorem four (f : Fin 4 → Nat → P) : ![f 0, f 1, f 2, f 3] = f := by
  funext j; fin_cases j <;> rfl

theorem demo_wires : wiresOf demoTable = demoKey.wires := four demoKey.wires

theorem demo_columns : HasColumns demoKey demoTable := ⟨four demoKey.sigma, four demoKey.id, rfl, rfl, fun _ _ => rfl⟩

theorem demo_assigned : Assigned demo (wiresOf demoTable) [7] fun k => demo.vars.getD k 0 := by
  obtain ⟨h1, h2⟩ := C105_wires demo_ok
  rw [demo_wires]
  exact ⟨h1, by decide +kernel, by decide +kernel⟩

/-- The delta of the public input. -/
def demoDelta : P := match publicInputDelta (3 : P) 11 [7] 1 with
  | .ok δ => δ
  | .error _ => 0

/-- The parameters. -/
def demoParams : Params P := ⟨0, 0, 0, 3, 11, demoDelta, 0, 0, 0, 0, 0⟩

theorem demo_delta : publicInputDelta demoParams.beta demoParams.gamma [7] demoKey.publicOffset =
    .ok demoParams.publicInputDelta := by
  have h : (publicInputDelta (3 : P) 11 [7] 1).isOk = true := by decide +kernel
  obtain ⟨s, d, hk⟩ := createKey_ok demo_ok
  rw [hk.offset]
  show publicInputDelta (3 : P) 11 [7] 1 = .ok demoDelta
  rw [demoDelta]
  cases hc : publicInputDelta (3 : P) 11 [7] 1 with
  | ok k => rfl
  | error e => rw [hc] at h; cases h

/-- The hypotheses of `C105_complete` hold for the example. -/
example : ∀ i < demoKey.size, Subrel.perm0.value P demoParams (fun c => demoTable c i) = 0 ∧
    Subrel.perm1.value P demoParams (fun c => demoTable c i) = 0 := by
  refine C105_complete demo_ok (by decide) demo_columns demo_assigned ?_ demo_delta ?_
  · obtain ⟨z, hz⟩ := C105_runs demo_ok (by decide) demoKey.wires 3 11
    rw [demo_wires]
    show grandProduct demoKey demoKey.wires 3 11 = .ok demoZ
    rw [demoZ, hz]
  · rw [demo_wires]
    have h : ∀ i < 4, 1 ≤ i → ∀ j, demoKey.wires j i + demoKey.sigma j i * 3 + 11 ≠ 0 := by decide +kernel
    exact fun i h1 h2 => h i h2 h1

/-- The value of the column is not trivial. -/
example : demoZ 2 ≠ 1 ∧ demoDelta ≠ 1 := by decide +kernel

theorem distinct_P (k : Nat) : Distinct P k := fun _ _ _ _ h => Nat.cast_injective h

/-- The hypotheses of `C106_sound` hold for the example, for all wires. -/
example (w : Fin 4 → Nat → P) := C106_sound demo_ok (by decide) (T := 3) (distinct_P _) (by decide +kernel) w [7] rfl

/-- Not all wires satisfy the copy constraints. -/
example : ¬ ∃ val, Assigned demo (fun j i => if j = 0 ∧ i = 1 then 8 else demoKey.wires j i) [7] val := by
  rintro ⟨val, h⟩
  have h1 : (8 : P) = val 1 := h.wires 0 1 1 rfl
  have h2 : [val 1] = [(7 : P)] := h.publics
  rw [← h1] at h2
  exact absurd h2 (by decide +kernel)

end OinkDemo

end Verif.Honk
