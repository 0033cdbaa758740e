import Verif.Honk.BuildHonestRange

/-!
# Lemmas: limbs of an honest prover
-/

namespace Verif.Honk.Draft

variable {F : Type} [Field F] {toNat : F → Nat}

/-- The limbs get their variables. -/
theorem Honest.addLimbs (hT : Lifts toNat) (xs : List (F × Nat)) : ∀ {s : Draft F} {P : List Nat} (ls : List (Nat × F)), Honest toNat s P none →
    (∀ x ∈ xs, x.2 < 2 ^ 14 ∧ toNat x.1 ≤ x.2) → ∃ s' is, xs.foldlM addLimb (s, ls) = .ok (s', ls ++ is) ∧
      Honest toNat s' (is.map (·.1) ++ P) none ∧ Grows s s' ∧ is.map (·.2) = xs.map (·.1) ∧ ∀ i ∈ is, s'.vars[i.1]? = some i.2 := by
  induction xs with
  | nil => intro s P ls h _; exact ⟨s, [], by simp; rfl, h, .refl s, rfl, by simp⟩
  | cons x xs ih =>
    intro s P ls h hx
    obtain ⟨h1, h2⟩ := hx x List.mem_cons_self
    obtain ⟨s1, r1, h3, g1⟩ := (h.addVariable x.1).newRange hT (get_new s x.1) h1 h2
    obtain ⟨s2, is, r2, h4, g2, e, hv⟩ := ih (ls ++ [(s.vars.length, x.1)]) h3 fun y hy => hx y (List.mem_cons_of_mem _ hy)
    refine ⟨s2, (s.vars.length, x.1) :: is, ?_, h4.weaken ?_, (grows_addVariable s x.1).trans (g1.trans g2), by simp [e], ?_⟩
    · rw [List.foldlM_cons]
      refine bind_ok.2 ⟨_, bind_ok.2 ⟨s1, r1, rfl⟩, ?_⟩
      rw [r2]; simp
    · intro v hv
      left
      simp only [List.mem_append, List.mem_cons, List.map_cons] at hv ⊢
      tauto
    · intro i hi
      rcases List.mem_cons.1 hi with rfl | hi
      · exact get_mono (g1.vars.trans g2.vars) (get_new s x.1)
      · exact hv i hi

/-- What one gate of limbs adds up to. -/
def limbValue (bits : Nat) (limbs : List (Nat × F)) (z i : Nat) : F :=
  (2 ^ (bits * (3 * i + 0)) % 2 ^ 256 : Nat) * (limbs.getD (3 * i + 0) (z, 0)).2 +
    (2 ^ (bits * (3 * i + 1)) % 2 ^ 256 : Nat) * (limbs.getD (3 * i + 1) (z, 0)).2 +
    (2 ^ (bits * (3 * i + 2)) % 2 ^ 256 : Nat) * (limbs.getD (3 * i + 2) (z, 0)).2

theorem Honest.limbGates (bits : Nat) (limbs : List (Nat × F)) (triples : Nat) : ∀ (n i : Nat) {s : Draft F} {P : List Nat} {e : Option F} {rest : F} {idx : Nat},
    i + (n + 1) = triples → Honest toNat s P e → (∀ x, e = some x → s.vars[idx]? = some x) → s.vars[idx]? = some rest →
    (∀ l ∈ limbs, s.vars[l.1]? = some l.2) → rest = ((List.range' i (n + 1)).map (limbValue bits limbs s.zeroIdx)).sum →
    ∃ st', (List.range' i (n + 1)).foldlM (limbGate bits limbs triples) (s, rest, idx) = .ok st' ∧ Honest toNat st'.1 P none ∧ Grows s st'.1 ∧
      (∃ g ∈ st'.1.arith, g.row 3 = idx) ∧
      ∀ m, 3 * i ≤ m → m < 3 * triples → ∃ g ∈ st'.1.arith, ∃ j, g.row j = (limbs.getD m (s.zeroIdx, 0)).1 := by
  intro n
  induction n with
  | zero =>
    intro i s P e rest idx hi h he hv hl hs
    have hlv : ∀ m, s.vars[(limbs.getD m (s.zeroIdx, 0)).1]? = some (limbs.getD m (s.zeroIdx, 0)).2 := by
      intro m
      rw [List.getD_eq_getElem?_getD]
      cases hm : limbs[m]? with
      | none => exact h.zero
      | some l => exact hl l (List.mem_of_getElem? hm)
    obtain ⟨s1, r1, h1, g1, -, ⟨g, hg, hrow⟩, -⟩ := h.gate (q := ⟨(limbs.getD (3 * i + 0) (s.zeroIdx, 0)).1, (limbs.getD (3 * i + 1) (s.zeroIdx, 0)).1, (limbs.getD (3 * i + 2) (s.zeroIdx, 0)).1, idx, 0,
      (2 ^ (bits * (3 * i + 0)) % 2 ^ 256 : Nat), (2 ^ (bits * (3 * i + 1)) % 2 ^ 256 : Nat), (2 ^ (bits * (3 * i + 2)) % 2 ^ 256 : Nat), -1, 0⟩)
      ⟨lt_of_get (hlv _), lt_of_get (hlv _), lt_of_get (hlv _), lt_of_get hv⟩ he (fun w hw => by
        simp only [Quad.value, hw _ _ (hlv _), hw _ _ hv]
        rw [hs]
        simp only [Nat.zero_add, List.range'_one, List.map_cons, List.map_nil, List.sum_cons, List.sum_nil, limbValue]
        ring)
    have hlast : ¬ (i + 1 ≠ triples) := by omega
    refine ⟨(s1, rest, idx), ?_, h1, g1, ⟨g, hg, by rw [hrow]; rfl⟩, fun m h1 h2 => ⟨g, hg, ?_⟩⟩
    · rw [Nat.zero_add, List.range'_one, List.foldlM_cons]
      refine bind_ok.2 ⟨(s1, rest, idx), bind_ok.2 ⟨s1, ?_, ?_⟩, rfl⟩
      · rw [show decide (i + 1 ≠ triples) = false from decide_eq_false hlast]; exact r1
      · rw [if_neg hlast]; rfl
    · obtain e | e | e : m = 3 * i + 0 ∨ m = 3 * i + 1 ∨ m = 3 * i + 2 := by omega
      · exact ⟨0, by rw [hrow, e]; rfl⟩
      · exact ⟨1, by rw [hrow, e]; rfl⟩
      · exact ⟨2, by rw [hrow, e]; rfl⟩
  | succ n ih =>
    intro i s P e rest idx hi h he hv hl hs
    have hlv : ∀ m, s.vars[(limbs.getD m (s.zeroIdx, 0)).1]? = some (limbs.getD m (s.zeroIdx, 0)).2 := by
      intro m
      rw [List.getD_eq_getElem?_getD]
      cases hm : limbs[m]? with
      | none => exact h.zero
      | some l => exact hl l (List.mem_of_getElem? hm)
    obtain ⟨s1, r1, h1, g1, e1, ⟨g, hg, hrow⟩⟩ := h.gateNext (q := ⟨(limbs.getD (3 * i + 0) (s.zeroIdx, 0)).1, (limbs.getD (3 * i + 1) (s.zeroIdx, 0)).1, (limbs.getD (3 * i + 2) (s.zeroIdx, 0)).1, idx, 0,
      (2 ^ (bits * (3 * i + 0)) % 2 ^ 256 : Nat), (2 ^ (bits * (3 * i + 1)) % 2 ^ 256 : Nat), (2 ^ (bits * (3 * i + 2)) % 2 ^ 256 : Nat), -1, 0⟩)
      ⟨lt_of_get (hlv _), lt_of_get (hlv _), lt_of_get (hlv _), lt_of_get hv⟩ he (x := rest - limbValue bits limbs s.zeroIdx i) (fun w hw => by
        simp only [Quad.value, hw _ _ (hlv _), hw _ _ hv, limbValue]
        ring)
    have hlast : i + 1 ≠ triples := by omega
    rw [List.range'_succ, List.map_cons, List.sum_cons] at hs
    have hn := get_new s1 (rest - limbValue bits limbs s.zeroIdx i)
    obtain ⟨st', r2, h2, g2, ⟨g', hg', hrow'⟩, hm⟩ := ih (i + 1) (by omega) (h1.addVariable (rest - limbValue bits limbs s.zeroIdx i))
      (fun x hx => by cases hx; exact hn) hn (fun l hl1 => get_mono (g1.vars.trans ⟨_, rfl⟩) (hl l hl1)) (by
        rw [hs]
        show _ = (List.map (limbValue bits limbs s1.zeroIdx) _).sum
        rw [g1.zero, List.range'_succ, List.map_cons, List.sum_cons]
        ring)
    have hz : (s1.addVariable (rest - limbValue bits limbs s.zeroIdx i)).zeroIdx = s.zeroIdx := g1.zero
    have g3 : Grows s st'.1 := g1.trans ((grows_addVariable _ _).trans g2)
    have hg3 : g ∈ st'.1.arith := g2.arith.subset hg
    refine ⟨st', ?_, h2, g3, ⟨g, hg3, by rw [hrow]; rfl⟩, fun m m1 m2 => ?_⟩
    · rw [List.range'_succ, List.foldlM_cons]
      refine bind_ok.2 ⟨_, bind_ok.2 ⟨s1, ?_, ?_⟩, r2⟩
      · rw [show decide (i + 1 ≠ triples) = true from decide_eq_true hlast]; exact r1
      · rw [if_pos hlast]; rfl
    · by_cases c : 3 * (i + 1) ≤ m
      · obtain ⟨g, hg, hj⟩ := hm m c m2
        rw [hz] at hj
        exact ⟨g, hg, hj⟩
      · refine ⟨g, hg3, ?_⟩
        obtain e | e | e : m = 3 * i + 0 ∨ m = 3 * i + 1 ∨ m = 3 * i + 2 := by omega
        · exact ⟨0, by rw [hrow, e]; rfl⟩
        · exact ⟨1, by rw [hrow, e]; rfl⟩
        · exact ⟨2, by rw [hrow, e]; rfl⟩

/-- A number is the sum of its limbs. -/
theorem sum_digits (bits n : Nat) : ∀ N, ∑ m ∈ Finset.range N, 2 ^ (bits * m) * (n / 2 ^ (bits * m) % 2 ^ bits) = n % 2 ^ (bits * N)
  | 0 => by simp [Nat.mod_one]
  | N + 1 => by
    rw [Finset.sum_range_succ, sum_digits bits n N, Nat.mul_succ, pow_add, Nat.mod_mul]

/-- A range constraint with limbs. -/
theorem Honest.limbedRange (hT : Lifts toNat) {s : Draft F} {P : List Nat} (h : Honest toNat s P none) {v : Nat} {x : F} (hx : s.vars[v]? = some x)
    {num : Nat} (hn : 0 < num) (hlt : toNat x < 2 ^ num) :
    ∃ s', s.limbedRange toNat v num 14 = .ok s' ∧ Honest toNat s' P none ∧ Grows s s' ∧ ∃ g ∈ s'.arith, ∃ j, g.row j = v := by
  set n := toNat x with hnx
  set limbs := (limbsOf n num 14).map fun x => ((x.1 : F), x.2) with hlimbs
  set L := num / 14 + if num % 14 = 0 then 0 else 1 with hL
  have hlen : limbs.length = L := by simp [hlimbs, limbsOf, hL]
  have hNL : num ≤ 14 * L ∧ 14 * L < num + 14 ∧ 0 < L := by
    rw [hL]; split_ifs <;> omega
  have hdig : ∀ m, n / 2 ^ (14 * m) % 2 ^ 14 < 2 ^ 14 := fun m => Nat.mod_lt _ (by norm_num)
  obtain ⟨s1, is, r1, h1, g1, e1, hv1⟩ := h.addLimbs hT limbs [] (by
    intro y hy
    obtain ⟨z, hz, rfl⟩ := List.mem_map.1 hy
    obtain ⟨i, hi, rfl⟩ := List.mem_map.1 hz
    have hi : i < L := List.mem_range.1 hi
    simp only
    rw [hT.small _ (hdig i)]
    by_cases c : i + 1 = L ∧ num % 14 ≠ 0
    · rw [if_pos c]
      have hp : 2 ^ (num % 14) ≤ 2 ^ 13 := Nat.pow_le_pow_right (by norm_num) (by omega)
      have hi14 : 14 * i + num % 14 = num := by
        have := Nat.div_add_mod num 14
        rw [hL, if_neg c.2] at c
        omega
      have : n / 2 ^ (14 * i) < 2 ^ (num % 14) := by
        rw [Nat.div_lt_iff_lt_mul (Nat.two_pow_pos _), ← pow_add, Nat.add_comm, hi14]; exact hlt
      have := Nat.mod_le (n / 2 ^ (14 * i)) (2 ^ 14)
      omega
    · rw [if_neg c]
      have := hdig i
      omega)
  have hisl : is.length = L := by
    have := congrArg List.length e1
    rw [List.length_map, List.length_map, hlen] at this; exact this
  have hget : ∀ m, (is.getD m (s1.zeroIdx, 0)).2 = ((n / 2 ^ (14 * m) % 2 ^ 14 : Nat) : F) := by
    intro m
    have h0 : (is.getD m (s1.zeroIdx, 0)).2 = (is.map (·.2)).getD m 0 := by
      simp only [List.getD_eq_getElem?_getD, List.getElem?_map]
      cases is[m]? <;> rfl
    rw [h0, e1]
    by_cases c : m < L
    · simp only [hlimbs, limbsOf, List.map_map, List.getD_eq_getElem?_getD, List.getElem?_map, ← hL]
      rw [List.getElem?_range c]
      rfl
    · have hz : n / 2 ^ (14 * m) = 0 := Nat.div_eq_of_lt (lt_of_lt_of_le hlt (Nat.pow_le_pow_right (by norm_num) (by omega)))
      rw [hz, List.getD_eq_default _ _ (by rw [List.length_map, hlen]; omega)]
      simp
  set triples := (limbs.length + 2) / 3 with htr
  have htr3 : L ≤ 3 * triples := by omega
  obtain ⟨N, hN⟩ : ∃ N, triples = N + 1 := ⟨triples - 1, by omega⟩
  have hx1 := get_mono g1.vars hx
  have hsum : x = ((List.range' 0 (N + 1)).map (limbValue 14 is s1.zeroIdx)).sum := by
    rw [← hN, ← List.range_eq_range', sum_range_map]
    have ht := sum_triples (fun m => ((2 ^ (14 * m) % 2 ^ 256 : Nat) : F) * (is.getD m (s1.zeroIdx, 0)).2) triples
    refine Eq.trans ?_ (ht.symm.trans rfl)
    have hterm : ∀ m, ((2 ^ (14 * m) % 2 ^ 256 : Nat) : F) * (is.getD m (s1.zeroIdx, 0)).2 = ((2 ^ (14 * m) * (n / 2 ^ (14 * m) % 2 ^ 14) : Nat) : F) := by
      intro m
      rw [hget m]
      by_cases c : 14 * m < 256
      · rw [Nat.mod_eq_of_lt (Nat.pow_lt_pow_right (by norm_num) c)]; push_cast; rfl
      · have hz : n / 2 ^ (14 * m) = 0 := Nat.div_eq_of_lt (lt_of_lt_of_le (hT.bound x) (Nat.pow_le_pow_right (by norm_num) (by omega)))
        rw [hz]; simp
    rw [Finset.sum_congr rfl fun m _ => hterm m, ← Nat.cast_sum, sum_digits, Nat.mod_eq_of_lt, hnx, hT.cast]
    exact lt_of_lt_of_le hlt (Nat.pow_le_pow_right (by norm_num) (by omega))
  obtain ⟨st', r2, h2, g2, ⟨g, hg, hrow⟩, hm⟩ := h1.limbGates 14 is triples N 0 (idx := v) (rest := x) (by omega) (by simp) hx1 hv1 hsum
  refine ⟨st'.1, ?_, h2.weaken ?_, g1.trans g2, g, hg, 3, hrow⟩
  · rw [Draft.limbedRange]
    refine bind_ok.2 ⟨(), check_ok.2 (decide_eq_true (lt_of_get hx)), bind_ok.2 ⟨(), check_ok.2 (decide_eq_true hn), bind_ok.2 ⟨x, h.getVariable hx, ?_⟩⟩⟩
    refine bind_ok.2 ⟨(s1, is), r1, bind_ok.2 ⟨st', ?_, rfl⟩⟩
    show (List.range triples).foldlM (limbGate 14 is triples) (s1, x, v) = .ok st'
    rw [List.range_eq_range', hN, ← hN]
    conv_lhs => rw [hN]
    rw [← hN] at r2 ⊢
    exact r2
  · intro u hu
    rcases List.mem_append.1 hu with hu | hu
    · right
      obtain ⟨i, hi, rfl⟩ := List.mem_map.1 hu
      obtain ⟨m, hmlt, rfl⟩ := List.getElem_of_mem hi
      obtain ⟨g, hg, j, hj⟩ := hm m (by omega) (by omega)
      refine ⟨g, hg, j, hj.trans ?_⟩
      rw [List.getD_eq_getElem?_getD, List.getElem?_eq_getElem hmlt]; rfl
    · exact .inl hu

/-- A range constraint. -/
theorem Honest.dyadicRange (hT : Lifts toNat) {s : Draft F} {P : List Nat} (h : Honest toNat s P none) {v : Nat} {x : F} (hx : s.vars[v]? = some x)
    {num : Nat} (hlt : toNat x < 2 ^ num) :
    ∃ s', s.dyadicRange toNat v num = .ok s' ∧ Honest toNat s' P none ∧ Grows s s' := by
  rw [Draft.dyadicRange]
  by_cases c1 : num = 1
  · subst c1
    rw [if_pos rfl]
    refine ⟨_, rfl, h.push _ fun w hw ha => .one ha (by simp) rfl rfl ?_, grows_push _ _⟩
    have hb : x = 0 ∨ x = 1 := by
      rw [← hT.cast x]
      obtain e | e : toNat x = 0 ∨ toNat x = 1 := by omega
      · rw [e]; simp
      · rw [e]; simp
    have := hw _ _ hx
    simp only [gateValue, lin, Matrix.cons_val_zero, Matrix.cons_val_one, Matrix.cons_val, this]
    rcases hb with rfl | rfl <;> ring
  · rw [if_neg c1]
    by_cases c2 : num ≤ 14
    · rw [if_pos c2]
      have hp : 0 < 2 ^ num := Nat.two_pow_pos _
      have hp' : 2 ^ num ≤ 2 ^ 14 := Nat.pow_le_pow_right (by norm_num) c2
      have h1 : Honest toNat (s.pushArith (freeGate ![v, s.zeroIdx, s.zeroIdx, s.zeroIdx])) P none :=
        h.push _ fun w hw ha => .zero ha (by simp) rfl rfl
      obtain ⟨s2, r2, h2, g2⟩ := h1.newRange hT (v := v) (x := x) hx (target := 2 ^ num - 1) (by omega) (by omega)
      refine ⟨s2, r2, h2.weaken fun u hu => ?_, (grows_push _ _).trans g2⟩
      rcases List.mem_cons.1 hu with rfl | hu
      · exact .inr ⟨_, g2.arith.subset (List.mem_append_right _ (List.mem_singleton.2 rfl)), 0, rfl⟩
      · exact .inl hu
    · rw [if_neg c2]
      obtain ⟨s', r, h1, g, -⟩ := h.limbedRange hT hx (by omega) hlt
      exact ⟨s', r, h1, g⟩

end Verif.Honk.Draft
