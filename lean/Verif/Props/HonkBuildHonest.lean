import Verif.Honk.BuildHonestAll
import Verif.Honk.BuildHonestTags
import Verif.Props.HonkBuildSame

/-!
# A prover with a witness of the program satisfies the circuit
-/

namespace Verif.Honk

open Acvm (Expression Input Opcode)

section

variable {F : Type} [Field F]

/-- What the rows of the block `arithmetic` say, one by one. -/
theorem arith_get {w : Nat → F} {gs : List (Gate F)} {e : Option F} (h : Draft.ArithC w gs e) :
    ∀ i g, gs[i]? = some g → g.qDelta = 0 ∧ (g.qArith = 0 ∨ (g.qArith = 1 ∧ Draft.gateValue w g = 0) ∨
      (g.qArith = 2 ∧ ∃ k x, g.qm = k * 2 ∧ k * w (g.row 0) * w (g.row 1) + Draft.lin w g + x = 0 ∧
        ((∃ g', gs[i + 1]? = some g' ∧ w (g'.row 3) = x) ∨ (i + 1 = gs.length ∧ e = some x)))) := by
  have old : ∀ {gs : List (Gate F)} {e : Option F} {g0 : Gate F} {e' : Option F}, (∀ x, e = some x → w (g0.row 3) = x) →
      (∀ i g, gs[i]? = some g → g.qDelta = 0 ∧ (g.qArith = 0 ∨ (g.qArith = 1 ∧ Draft.gateValue w g = 0) ∨
        (g.qArith = 2 ∧ ∃ k x, g.qm = k * 2 ∧ k * w (g.row 0) * w (g.row 1) + Draft.lin w g + x = 0 ∧
          ((∃ g', gs[i + 1]? = some g' ∧ w (g'.row 3) = x) ∨ (i + 1 = gs.length ∧ e = some x))))) →
      ∀ i g, gs[i]? = some g → g.qDelta = 0 ∧ (g.qArith = 0 ∨ (g.qArith = 1 ∧ Draft.gateValue w g = 0) ∨
        (g.qArith = 2 ∧ ∃ k x, g.qm = k * 2 ∧ k * w (g.row 0) * w (g.row 1) + Draft.lin w g + x = 0 ∧
          ((∃ g', (gs ++ [g0])[i + 1]? = some g' ∧ w (g'.row 3) = x) ∨ (i + 1 = (gs ++ [g0]).length ∧ e' = some x)))) := by
    intro gs e g0 e' h0 ih i g hg
    obtain ⟨h1, h2⟩ := ih i g hg
    refine ⟨h1, h2.imp_right (Or.imp_right ?_)⟩
    rintro ⟨a, k, x, b, c, d⟩
    refine ⟨a, k, x, b, c, .inl ?_⟩
    rcases d with ⟨g', d1, d2⟩ | ⟨d1, d2⟩
    · exact ⟨g', by rw [List.getElem?_append_left (List.getElem?_eq_some_iff.1 d1).1]; exact d1, d2⟩
    · exact ⟨g0, by rw [d1]; simp, h0 x d2⟩
  have split : ∀ {gs : List (Gate F)} {g0 g : Gate F} {i : Nat}, (gs ++ [g0])[i]? = some g → gs[i]? = some g ∨ (i = gs.length ∧ g = g0) := by
    intro gs g0 g i hg
    by_cases c : i < gs.length
    · rw [List.getElem?_append_left c] at hg; exact .inl hg
    · have := (List.getElem?_eq_some_iff.1 hg).1
      rw [List.length_append, List.length_singleton] at this
      obtain rfl : i = gs.length := by omega
      simp at hg
      exact .inr ⟨rfl, hg.symm⟩
  induction h with
  | nil => intro i g hg; simp at hg
  | zero _ h0 h1 h2 ih =>
    intro i g hg
    rcases split hg with h | ⟨-, rfl⟩
    · exact old h0 ih i g h
    · exact ⟨h2, .inl h1⟩
  | one _ h0 h1 h2 h3 ih =>
    intro i g hg
    rcases split hg with h | ⟨-, rfl⟩
    · exact old h0 ih i g h
    · exact ⟨h2, .inr (.inl ⟨h1, h3⟩)⟩
  | two k x _ h0 h1 h2 h3 h4 ih =>
    intro i g hg
    rcases split hg with h | ⟨rfl, rfl⟩
    · exact old h0 ih i g h
    · exact ⟨h2, .inr (.inr ⟨h1, k, x, h3, h4, .inr ⟨by simp, rfl⟩⟩)⟩

/-- A row in which only the selectors of the arithmetic and of the range gates may differ from zero. -/
theorem row_gates {p : Params F} {e : Col → F} (he : e .qElliptic = 0) (hm : e .qMemory = 0) (hn : e .qNnf = 0) (hx : e .qPoseidon2External = 0)
    (hi : e .qPoseidon2Internal = 0) (ha : Subrel.arith0.value F p e = 0) (ha' : e .qArith * (e .qArith - 1) * (e .qArith - 2) = 0)
    (hd : e .qDeltaRange = 0 ∨ (inRange (e .wr - e .wl) = 0 ∧ inRange (e .wo - e .wr) = 0 ∧ inRange (e .w4 - e .wo) = 0 ∧
      inRange (e .wlShift - e .w4) = 0)) : ∀ s : Subrel, s.isGate → s.value F p e = 0 := by
  intro s hs
  cases s
  case arith0 => exact ha
  case arith1 => simp only [Subrel.value, ha', zero_mul]
  case delta0 => rcases hd with h | ⟨h, -⟩ <;> simp only [Subrel.value, h, zero_mul, mul_zero]
  case delta1 => rcases hd with h | ⟨-, h, -⟩ <;> simp only [Subrel.value, h, zero_mul, mul_zero]
  case delta2 => rcases hd with h | ⟨-, -, h, -⟩ <;> simp only [Subrel.value, h, zero_mul, mul_zero]
  case delta3 => rcases hd with h | ⟨-, -, -, h⟩ <;> simp only [Subrel.value, h, zero_mul, mul_zero]
  case perm0 | perm1 | lookup0 | lookup1 | lookup2 => exact absurd hs (by simp [Subrel.isGate])
  all_goals simp only [Subrel.value, he, hm, hn, hx, hi, zero_mul, add_zero]

/-- The rows of the gates of the circuit: those of the blocks `arithmetic` and `delta_range`. -/
def GateRow (t : Draft F) (lookup : List Row) (i : Nat) : Prop :=
  1 + t.inputs.length + lookup.length ≤ i ∧ i < 1 + t.inputs.length + lookup.length + t.arith.length + t.delta.length

/-- The rows of the gates hold if their variables have the values `w`. -/
theorem honest_gates {t : Draft F} {lookup : List Row} {others : List (List Row)} {ts n : Nat} {p : Params F}
    {table : Col → Nat → F} {w : Nat → F} (h2 : (2 : F) ≠ 0) (hn : (t.toBuilder lookup others ts).rows.length < n)
    (htr : IsTrace t lookup n table) (hw : ∀ j r v, (t.toBuilder lookup others ts).at? j r = some v → wiresOf table j r = w v)
    (ha : Draft.ArithC w t.arith none) (hd : Draft.DeltaC w t.delta) {i : Nat} (hi : GateRow t lookup i) :
    ∀ s : Subrel, s.isGate → s.value F p (fun c => table c i) = 0 := by
  obtain ⟨hi1, hi2⟩ := hi
  have hinv : (2 : F)⁻¹ * 2 = 1 := inv_mul_cancel₀ h2
  by_cases c : i < 1 + t.inputs.length + lookup.length + t.arith.length
  · obtain ⟨k, rfl⟩ := Nat.exists_eq_add_of_le hi1
    have hg : t.arith[k]? = some t.arith[k] := List.getElem?_eq_getElem (by omega)
    have hat := fun j => rows_arith lookup others ts hg j
    have hr := at?_lt (hat 0)
    have hs := htr.arith k _ hg
    have w0 : table .wl _ = _ := hw 0 _ _ (hat 0)
    have w1 : table .wr _ = _ := hw 1 _ _ (hat 1)
    have w2 : table .wo _ = _ := hw 2 _ _ (hat 2)
    have w3 : table .w4 _ = _ := hw 3 _ _ (hat 3)
    obtain ⟨hq, hrow⟩ := arith_get ha k _ hg
    generalize t.arith[k] = g at *
    refine row_gates (hs .qElliptic (by decide)) (hs .qMemory (by decide)) (hs .qNnf (by decide)) (hs .qPoseidon2External (by decide))
      (hs .qPoseidon2Internal (by decide)) ?_ ?_ (.inl ((hs .qDeltaRange (by decide)).trans hq))
    · simp only [Subrel.value, smul_eq_mul]
      rw [w0, w1, w2, w3, hs .qm (by decide), hs .qc (by decide), hs .ql (by decide), hs .qr (by decide), hs .qo (by decide), hs .q4 (by decide),
        hs .qArith (by decide)]
      simp only [Gate.selector]
      rcases hrow with h1 | ⟨h1, h3⟩ | ⟨h1, k', x, h3, h4, h5⟩
      · rw [h1, zero_mul]
      · rw [h1]
        rw [Draft.gateValue, Draft.lin] at h3
        linear_combination h3 + (g.qm * w (g.row 0) * w (g.row 1)) * hinv
      · rcases h5 with ⟨g', h5, h6⟩ | ⟨-, h5⟩
        · have hat' := rows_arith lookup others ts h5 3
          have hr' := at?_lt hat'
          have hx : table .w4Shift (1 + t.inputs.length + lookup.length + k) = x := by
            rw [htr.fourth _ (by omega), ← h6]
            exact hw 3 _ _ hat'
          rw [hx, h1, h3]
          rw [Draft.lin] at h4
          linear_combination 2 * h4 + 2 * k' * w (g.row 0) * w (g.row 1) * hinv
        · cases h5
    · simp only [hs .qArith (by decide), Gate.selector]
      rcases hrow with h1 | ⟨h1, -⟩ | ⟨h1, -⟩ <;> rw [h1] <;> ring
  · obtain ⟨k, rfl⟩ := Nat.exists_eq_add_of_le (not_lt.1 c)
    have hg : t.delta[k]? = some t.delta[k] := List.getElem?_eq_getElem (by omega)
    have hat := fun j => rows_delta lookup others ts hg j
    have hr := at?_lt (hat 0)
    have hs := htr.delta k _ hg
    have w0 : table .wl _ = _ := hw 0 _ _ (hat 0)
    have w1 : table .wr _ = _ := hw 1 _ _ (hat 1)
    have w2 : table .wo _ = _ := hw 2 _ _ (hat 2)
    have w3 : table .w4 _ = _ := hw 3 _ _ (hat 3)
    obtain ⟨hqa, hqd⟩ := hd.kinds _ (List.getElem_mem (l := t.delta) (n := k) (by omega))
    have hlast : k + 1 = t.delta.length → t.delta[k].qDelta = 0 := fun e => hd.last _ (by
      rw [List.getLast?_eq_getElem?, ← hg]; congr 1; omega)
    have hok := fun g' hg' => hd.ok k _ g' hg hg'
    generalize t.delta[k] = g at *
    have hqA : table .qArith (1 + t.inputs.length + lookup.length + t.arith.length + k) = 0 := (hs .qArith (by decide)).trans hqa
    refine row_gates (hs .qElliptic (by decide)) (hs .qMemory (by decide)) (hs .qNnf (by decide)) (hs .qPoseidon2External (by decide))
      (hs .qPoseidon2Internal (by decide)) ?_ ?_ ?_
    · simp only [Subrel.value, hqA, zero_mul]
    · simp only [hqA, zero_mul]
    · rcases hqd with h0 | h1
      · exact .inl ((hs .qDeltaRange (by decide)).trans h0)
      · by_cases c' : k + 1 < t.delta.length
        · have hg' : t.delta[k + 1]? = some t.delta[k + 1] := List.getElem?_eq_getElem c'
          have hat' := rows_delta lookup others ts hg' 0
          have hr' := at?_lt hat'
          have hx : table .wlShift (1 + t.inputs.length + lookup.length + t.arith.length + k) = w (t.delta[k + 1].row 0) := by
            rw [htr.left _ (by omega)]
            exact hw 0 _ _ hat'
          right
          rw [w0, w1, w2, w3, hx]
          exact hok _ hg' h1
        · have := hlast (by omega)
          rw [h1] at this
          exact absurd this one_ne_zero

end

section

variable {p : Nat} [Fact p.Prime]

theorem lifts_val (hp : 2 ^ 14 ≤ p) (hp' : p ≤ 2 ^ 256) : Draft.Lifts (ZMod.val : ZMod p → Nat) where
  cast x := ZMod.natCast_zmod_val x
  small k hk := ZMod.val_natCast_of_lt (by omega)
  bound x := lt_of_lt_of_le (ZMod.val_lt x) hp'
  le k := by rw [ZMod.val_natCast]; exact Nat.mod_le _ _

theorem opSat_of_satisfies {a : Nat → ZMod p} : ∀ {ops : List (Opcode (ZMod p))} {af af' : Draft.AcirFormat (ZMod p)},
    ops.foldlM Draft.addOpcode af = .ok af' → ∀ {mem}, Spec.Acir.Satisfies a mem ops → ∀ op ∈ ops, Draft.OpSat a op
  | [], _, _, _, _, _ => by simp
  | op :: ops, af, af', h, mem, hs => by
    rw [List.foldlM_cons] at h
    obtain ⟨af1, h1, h2⟩ := Draft.bind_ok.1 h
    obtain ⟨s1, s2⟩ := hs
    have : Draft.OpSat a op := by
      cases op with
      | assertZero e => exact s1
      | range x bits =>
        cases x with
        | witness v => exact ⟨(a v).val, s1, (ZMod.natCast_zmod_val _).symm⟩
        | constant c => cases h1
      | _ => cases h1
    rintro o (_ | ⟨_, ho⟩)
    · exact this
    · exact opSat_of_satisfies h2 s2 o ho

/-- The circuit of a witness that satisfies the program, with what is known about it. -/
theorem honest_circuit (hp : 2 ^ 14 ≤ p) (hp' : p ≤ 2 ^ 256) {ops : List (Opcode (ZMod p))} {af : Draft.AcirFormat (ZMod p)}
    (haf : Draft.acirFormat ops = .ok af) {inputs : List Nat} {witness : List (ZMod p)}
    (hlen : witness.length = Draft.maxWitness inputs ops + 1)
    (hsat : Spec.Acir.Satisfies (fun v => witness.getD v 0) Spec.Acir.noMemory ops) (extra : List (ZMod p)) :
    ∃ b t, Draft.createCircuit ZMod.val ops inputs witness extra = .ok t ∧ Draft.Honest ZMod.val b [] none ∧
      Draft.HFinal ZMod.val b b.rangeLists t ∧ witness <+: b.vars ∧
      ∃ is, b.inputs = inputs ++ is ∧ is.length = 8 ∧ ∀ i ∈ is, b.vars[i]? = some 0 := by
  have hT := lifts_val hp hp'
  have hne : witness ≠ [] := by rintro rfl; simp at hlen
  obtain ⟨s1, s2, b, r1, r2, r3, hb, hd, hw, his⟩ := Draft.build_honest hT extra haf hlen (opSat_of_satisfies haf hsat)
  obtain ⟨t, r4, hf⟩ := Draft.Honest.processRanges hT hb hd
  refine ⟨b, t, ?_, hb, hf, hw, his⟩
  rw [Draft.createCircuit]
  refine Draft.bind_ok.2 ⟨af, haf, Draft.bind_ok.2 ⟨(), Draft.check_ok.2 (decide_eq_true (.inr hlen)), ?_⟩⟩
  refine Draft.bind_ok.2 ⟨s1, ?_, Draft.bind_ok.2 ⟨s2, r2, Draft.bind_ok.2 ⟨b, r3, r4⟩⟩⟩
  rw [if_neg hne, decide_eq_false hne]
  exact r1

/-- Once the program is translated into constraints, the builder makes a circuit for every witness that satisfies the program: it
neither panics nor returns an error. -/
theorem C115_builds (hp : 2 ^ 14 ≤ p) (hp' : p ≤ 2 ^ 256) {ops : List (Opcode (ZMod p))} {af : Draft.AcirFormat (ZMod p)}
    (haf : Draft.acirFormat ops = .ok af) {inputs : List Nat} {witness : List (ZMod p)}
    (hlen : witness.length = Draft.maxWitness inputs ops + 1)
    (hsat : Spec.Acir.Satisfies (fun v => witness.getD v 0) Spec.Acir.noMemory ops) (extra : List (ZMod p)) :
    ∃ t, Draft.createCircuit ZMod.val ops inputs witness extra = .ok t := by
  obtain ⟨b, t, h, -⟩ := honest_circuit hp hp' haf hlen hsat extra
  exact ⟨t, h⟩

/-- The columns that a prover with a witness of the program makes describe an execution of the circuit, with the values of the public
witnesses and the eight zeros of the empty pairing point as public inputs.  Nothing is assumed about the gates of the circuit: only the
rows of the other blocks and the lookups are not those of the program. -/
theorem C115_execution (hp : 2 ^ 14 ≤ p) (hp' : p ≤ 2 ^ 256) {ops : List (Opcode (ZMod p))} {inputs : List Nat}
    {witness extra : List (ZMod p)} (hne : witness ≠ []) (hsat : Spec.Acir.Satisfies (fun v => witness.getD v 0) Spec.Acir.noMemory ops)
    {t : Draft (ZMod p)} (h : Draft.createCircuit ZMod.val ops inputs witness extra = .ok t) {lookup : List Row} {others : List (List Row)}
    {tables : Nat} {key : Key (ZMod p)} (hkey : createKey (t.toBuilder lookup others tables) = .ok key)
    {params : Params (ZMod p)} {table : Col → Nat → ZMod p} (htr : IsTrace t lookup key.size table) (hwires : wiresOf table = key.wires)
    (hothers : ∀ s : Subrel, s.isGate → ∀ i < key.size, ¬ GateRow t lookup i → s.value (ZMod p) params (fun c => table c i) = 0)
    (hlookups : ∀ i < key.size, table .qLookup i = 1 → ∃ j < key.size, entry table j = lookedUp table i) :
    Execution (t.toBuilder lookup others tables) params key.size (inputs.map (fun v => witness.getD v 0) ++ List.replicate 8 0) table := by
  have hlen := (C114_length ZMod.val ops inputs h).resolve_left hne
  obtain ⟨af, haf, -⟩ := Draft.bind_ok.1 h
  obtain ⟨b, t', h', hb, hf, hw, is, hin, h8, hz⟩ := honest_circuit hp hp' haf hlen hsat extra
  obtain rfl : t = t' := Except.ok.inj (h.symm.trans h')
  have hT := lifts_val hp hp'
  have hfin := hf.fin
  have hvalid := valid_of_createKey hkey
  have hrl : ∀ v < t.vars.length, t.rl v = v := fun v hv => by
    by_cases c : v < b.vars.length
    · rw [hfin.rl_old v c, hb.ident v c]
    · exact hfin.rl_new v (not_lt.1 c) hv
  have hM : Draft.Matches t (t.toBuilder lookup others tables) :=
    ⟨fun _ => rfl, fun _ => rfl, rfl, fun g hg => by
      refine List.mem_append_right _ ?_
      simp only [Draft.toBuilder, List.flatten_cons]
      exact List.mem_append_right _ (List.mem_append_right _ (List.mem_append_left _ (List.mem_map_of_mem hg))),
      fun row hrow j => hfin.real_len ▸ hvalid row hrow j⟩
  have harith : ∀ g ∈ t.arith, g.row ∈ (t.toBuilder lookup others tables).rows := fun g hg => by
    refine List.mem_append_right _ ?_
    simp only [Draft.toBuilder, List.flatten_cons]
    exact List.mem_append_right _ (List.mem_append_left _ (List.mem_map_of_mem hg))
  have hag : Draft.Agree (fun v => t.vars.getD v 0) t := fun v x hx => by
    show t.vars.getD v 0 = x
    rw [List.getD_eq_getElem?_getD, hx]; rfl
  have hw5 := (C105_wires hkey).1
  have hwv : ∀ j r v, (t.toBuilder lookup others tables).at? j r = some v → wiresOf table j r = t.vars.getD v 0 := by
    intro j r v hv
    rw [hwires, hw5 j r v hv]
    have hlt : v < t.vars.length := by
      rw [Builder.at?] at hv
      split_ifs at hv
      obtain ⟨row, hrow, rfl⟩ := Option.map_eq_some_iff.1 hv
      exact hM.valid row (List.mem_of_getElem? hrow) j
    rw [hM.real, hrl v hlt]; rfl
  have hold : ∀ v x, b.vars[v]? = some x → t.vars.getD (t.rl v) 0 = x := fun v x hx => by
    have h1 := Draft.get_mono hf.vars hx
    rw [hrl v (Draft.lt_of_get h1)]
    exact hag v x h1
  refine ⟨fun s hs i hi => ?_, ⟨fun v => t.vars.getD v 0, ?_, ?_, Draft.tags_honest hb hf hM harith⟩, hlookups⟩
  · by_cases c : GateRow t lookup i
    · exact honest_gates hT.two (C109_size hkey).2 htr hwv (hf.arith _ hag) (hf.delta _ hag) c s hs
    · exact hothers s hs i hi c
  · rw [hwires]; exact hw5
  · rw [show (t.toBuilder lookup others tables).inputs = inputs ++ is from hfin.inputs.trans hin, List.map_append]
    congr 1
    · refine List.map_congr_left fun v hv => ?_
      have hlt : v < witness.length := by
        rw [hlen, Draft.maxWitness]
        have := (Draft.le_foldl_max (inputs ++ ops.flatMap Draft.witnessesOf) 0).2 v (List.mem_append_left _ hv)
        omega
      rw [show witness.getD v 0 = witness[v] by rw [List.getD_eq_getElem?_getD, List.getElem?_eq_getElem hlt]; rfl]
      exact hold v _ (Draft.get_mono hw (List.getElem?_eq_getElem hlt))
    · rw [← h8]
      exact List.eq_replicate_iff.2 ⟨by simp, fun x hx => by
        obtain ⟨i, hi, rfl⟩ := List.mem_map.1 hx
        exact hold i 0 (hz i hi)⟩

end

namespace BuildDemo

theorem satisfied : Spec.Acir.Satisfies (fun v => ([2, 3, 6] : List (ZMod p)).getD v 0) Spec.Acir.noMemory ops := by
  refine ⟨?_, ?_, trivial⟩
  · show Spec.Acir.eval _ _ = 0
    decide +kernel
  · show ZMod.val _ < _
    decide +kernel

/-- The hypotheses of the theorems hold of the example. -/
example : ∃ t, Draft.createCircuit ZMod.val ops [2] [2, 3, 6] [] = .ok t := by
  obtain ⟨af, haf, -⟩ := Draft.bind_ok.1 t_ok
  exact C115_builds (by decide) (by decide) haf (by decide +kernel) satisfied []

example : Execution (t.toBuilder [] [] 0) start key.size ([2].map (fun v => ([2, 3, 6] : List (ZMod p)).getD v 0) ++ List.replicate 8 0) table :=
  C115_execution (by decide) (by decide) (by decide) satisfied t_ok key_ok isTrace wires (fun s hs i hi _ => gates_ok s hs i hi)
    (fun i hi h1 => by
      rw [size] at hi
      rw [noLookups i hi] at h1
      exact absurd h1 (by decide))

end BuildDemo

end Verif.Honk
