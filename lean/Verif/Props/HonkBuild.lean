import Verif.Honk.BuildSound
import Verif.Spec.HonkBuild
import Verif.Spec.Acir
import Verif.Props.HonkWhole
import Mathlib.NumberTheory.LucasPrimality
import Mathlib.Tactic.ReduceModChar

/-!
# The circuit of a Noir program
-/

namespace Verif.Honk

open Acvm (Expression Input Opcode)

/-! ## From the trace to the gates -/

section

variable {F : Type} [Field F]

omit [Field F] in
theorem rows_arith {t : Draft F} (lookup : List Row) (others : List (List Row)) (ts : Nat) {i : Nat} {g : Gate F}
    (h : t.arith[i]? = some g) (j : Fin 4) : (t.toBuilder lookup others ts).at? j (1 + t.inputs.length + lookup.length + i) = some (g.row j) := by
  have hi := (List.getElem?_eq_some_iff.1 h).1
  rw [Builder.at?, if_neg (by omega), Builder.rows]
  rw [List.getElem?_append_right (by simp [Draft.toBuilder]; omega)]
  simp only [Draft.toBuilder, List.flatten_cons, List.length_map]
  rw [List.getElem?_append_right (by omega), List.getElem?_append_left (by rw [List.length_map]; omega),
    show 1 + t.inputs.length + lookup.length + i - 1 - t.inputs.length - lookup.length = i by omega, List.getElem?_map, h]
  rfl

omit [Field F] in
theorem rows_delta {t : Draft F} (lookup : List Row) (others : List (List Row)) (ts : Nat) {i : Nat} {g : Gate F}
    (h : t.delta[i]? = some g) (j : Fin 4) :
    (t.toBuilder lookup others ts).at? j (1 + t.inputs.length + lookup.length + t.arith.length + i) = some (g.row j) := by
  have hi := (List.getElem?_eq_some_iff.1 h).1
  rw [Builder.at?, if_neg (by omega), Builder.rows]
  rw [List.getElem?_append_right (by simp [Draft.toBuilder]; omega)]
  simp only [Draft.toBuilder, List.flatten_cons, List.length_map]
  rw [List.getElem?_append_right (by omega), List.getElem?_append_right (by rw [List.length_map]; omega),
    List.getElem?_append_left (by simp only [List.length_map]; omega), List.length_map,
    show 1 + t.inputs.length + lookup.length + t.arith.length + i - 1 - t.inputs.length - lookup.length - t.arith.length = i by omega,
    List.getElem?_map, h]
  rfl

omit [Field F] in
theorem at?_lt {c : Builder F} {j : Fin 4} {r v : Nat} (h : c.at? j r = some v) : 0 < r ∧ r ≤ c.rows.length := by
  rw [Builder.at?] at h
  split_ifs at h with h0
  obtain ⟨row, hrow, -⟩ := Option.map_eq_some_iff.1 h
  have := (List.getElem?_eq_some_iff.1 hrow).1
  omega

/-- The rows of a trace satisfy the gates of the circuit. -/
theorem trace_gates {t : Draft F} {lookup : List Row} {others : List (List Row)} {ts n : Nat} {p : Params F} {pub : List F}
    {table : Col → Nat → F} {val : Nat → F} (h2 : (2 : F) ≠ 0) (hn : (t.toBuilder lookup others ts).rows.length < n)
    (htr : IsTrace t lookup n table) (hg : ∀ s : Subrel, s.isGate → ∀ i < n, s.value F p (fun c => table c i) = 0)
    (hc : Assigned (t.toBuilder lookup others ts) (wiresOf table) pub val) :
    Draft.ArithOk (fun v => val (t.rl v)) t.arith ∧ Draft.DeltaOk (fun v => val (t.rl v)) t.delta := by
  have hw : ∀ j r v, (t.toBuilder lookup others ts).at? j r = some v → wiresOf table j r = val (t.rl v) := hc.wires
  have harith : ∀ i g, t.arith[i]? = some g → ∃ r, r < n ∧ (∀ c ∈ selectorCols, table c r = g.selector c) ∧
      (∀ j, wiresOf table j r = val (t.rl (g.row j))) ∧
      ∀ g', t.arith[i + 1]? = some g' → table .w4Shift r = val (t.rl (g'.row 3)) := by
    intro i g hgi
    have hat := fun j => rows_arith lookup others ts hgi j
    have hr := at?_lt (hat 0)
    refine ⟨1 + t.inputs.length + lookup.length + i, by omega, htr.arith i g hgi, fun j => hw j _ _ (hat j), fun g' hg' => ?_⟩
    have hat' := rows_arith lookup others ts hg' 3
    have hr' := at?_lt hat'
    rw [htr.fourth _ (by omega)]
    exact hw 3 _ _ hat'
  have hdelta : ∀ i g, t.delta[i]? = some g → ∃ r, r < n ∧ (∀ c ∈ selectorCols, table c r = g.selector c) ∧
      (∀ j, wiresOf table j r = val (t.rl (g.row j))) ∧
      ∀ g', t.delta[i + 1]? = some g' → table .wlShift r = val (t.rl (g'.row 0)) := by
    intro i g hgi
    have hat := fun j => rows_delta lookup others ts hgi j
    have hr := at?_lt (hat 0)
    refine ⟨1 + t.inputs.length + lookup.length + t.arith.length + i, by omega, htr.delta i g hgi, fun j => hw j _ _ (hat j), fun g' hg' => ?_⟩
    have hat' := rows_delta lookup others ts hg' 0
    have hr' := at?_lt hat'
    rw [htr.left _ (by omega)]
    exact hw 0 _ _ hat'
  have hA : ∀ i g, t.arith[i]? = some g → ∃ r, r < n ∧ (∀ c ∈ selectorCols, table c r = g.selector c) ∧
      (∀ j, wiresOf table j r = val (t.rl (g.row j))) ∧
      (∀ g', t.arith[i + 1]? = some g' → table .w4Shift r = val (t.rl (g'.row 3))) ∧
      g.qArith * ((-(2 : F)⁻¹) * ((g.qArith - 3) * g.qm * val (t.rl (g.row 0)) * val (t.rl (g.row 1))) + Draft.lin (fun v => val (t.rl v)) g
        + (g.qArith - 1) * table .w4Shift r) = 0 := by
    intro i g hgi
    obtain ⟨r, hr, hs, hww, hnext⟩ := harith i g hgi
    refine ⟨r, hr, hs, hww, hnext, ?_⟩
    have h := hg .arith0 (by simp [Subrel.isGate]) r hr
    simp only [Subrel.value, smul_eq_mul] at h
    have w0 : table .wl r = _ := hww 0
    have w1 : table .wr r = _ := hww 1
    have w2 : table .wo r = _ := hww 2
    have w3 : table .w4 r = _ := hww 3
    rw [w0, w1, w2, w3, hs .qm (by decide), hs .qc (by decide), hs .ql (by decide), hs .qr (by decide), hs .qo (by decide), hs .q4 (by decide),
      hs .qArith (by decide)] at h
    simp only [Gate.selector] at h
    rw [← h, Draft.lin]; ring
  refine ⟨⟨fun g hgm h1 => ?_, fun i g g' hgi hgi' h1 k hk => ?_⟩, fun i g g' hgi hgi' h1 => ?_⟩
  · obtain ⟨i, hi, rfl⟩ := List.getElem_of_mem hgm
    obtain ⟨r, -, -, -, -, h⟩ := hA i _ (List.getElem?_eq_getElem hi)
    rw [h1] at h
    have hinv : (2 : F)⁻¹ * 2 = 1 := inv_mul_cancel₀ h2
    linear_combination h - (t.arith[i].qm * val (t.rl (t.arith[i].row 0)) * val (t.rl (t.arith[i].row 1))) * hinv
  · obtain ⟨r, -, -, -, hnext, h⟩ := hA i g hgi
    rw [h1, hk, hnext g' hgi'] at h
    have hinv : (2 : F)⁻¹ * 2 = 1 := inv_mul_cancel₀ h2
    have h3 := (mul_eq_zero.1 h).resolve_left h2
    linear_combination h3 - k * val (t.rl (g.row 0)) * val (t.rl (g.row 1)) * hinv
  · obtain ⟨r, hr, hs, hww, hnext⟩ := hdelta i g hgi
    have hq : table .qDeltaRange r = 1 := by rw [hs .qDeltaRange (by decide)]; exact h1
    have w0 : table .wl r = _ := hww 0
    have w1 : table .wr r = _ := hww 1
    have w2 : table .wo r = _ := hww 2
    have w3 : table .w4 r = _ := hww 3
    have d0 := hg .delta0 (by simp [Subrel.isGate]) r hr
    have d1 := hg .delta1 (by simp [Subrel.isGate]) r hr
    have d2 := hg .delta2 (by simp [Subrel.isGate]) r hr
    have d3 := hg .delta3 (by simp [Subrel.isGate]) r hr
    simp only [Subrel.value, hq, one_mul, w0, w1, w2, w3, hnext g' hgi'] at d0 d1 d2 d3
    exact ⟨d0, d1, d2, d3⟩

theorem valid_of_createKey {c : Builder F} {key : Key F} (h : createKey c = .ok key) : ∀ row ∈ c.rows, ∀ j, row j < c.realIndex.length := by
  rw [createKey] at h
  obtain ⟨a, ha, -⟩ := activeRegion_ok c
  simp only [ha, bind, Except.bind] at h
  cases ht : populate c c.dyadicSize with
  | error e => rw [ht] at h; cases h
  | ok t =>
    obtain ⟨p1, -⟩ := populate_ok ht
    intro row hrow j
    obtain ⟨i, hi, rfl⟩ := List.getElem_of_mem hrow
    have := (p1 j (i + 1) (c.rows[i] j) (by rw [Builder.at?, if_neg (by omega)]; simp [hi])).1
    exact (List.getElem?_eq_some_iff.1 this).1

end

section

variable {p : Nat} [Fact p.Prime]

theorem holds_of_opSat {a : Nat → ZMod p} {op : Opcode (ZMod p)} (h : Draft.OpSat a op) :
    (∀ mem, Spec.Acir.Holds a mem op) ∧ ∀ mem, Spec.Acir.next a mem op = mem := by
  cases op with
  | assertZero e => exact ⟨fun _ => h, fun _ => rfl⟩
  | range x bits =>
    cases x with
    | witness v =>
      refine ⟨fun _ => ?_, fun _ => rfl⟩
      obtain ⟨k, hk, e⟩ := h
      rw [Spec.Acir.Holds, Spec.Acir.inputVal, e, ZMod.val_natCast]
      exact lt_of_le_of_lt (Nat.mod_le _ _) hk
    | constant c => exact h.elim
  | _ => exact h.elim

theorem satisfies_of_opSat {a : Nat → ZMod p} : ∀ {ops : List (Opcode (ZMod p))}, (∀ op ∈ ops, Draft.OpSat a op) → ∀ mem, Spec.Acir.Satisfies a mem ops
  | [], _, _ => trivial
  | op :: ops, h, mem => by
    obtain ⟨h1, h2⟩ := holds_of_opSat (h op List.mem_cons_self)
    refine ⟨h1 mem, ?_⟩
    rw [h2]; exact satisfies_of_opSat (fun o ho => h o (List.mem_cons_of_mem _ ho)) mem

/-- Let the circuit of a program be made, for whatever witness.  Any execution of it, by whatever columns, is an assignment that satisfies
the program, and the public inputs are the values of the public witnesses followed by the eight zeros of the empty pairing point. -/
theorem C113_sound {toNat : ZMod p → Nat} {ops : List (Opcode (ZMod p))} {inputs : List Nat} {witness extra : List (ZMod p)}
    {t : Draft (ZMod p)} (h : Draft.createCircuit toNat ops inputs witness extra = .ok t) {lookup : List Row} {others : List (List Row)}
    {tables : Nat} {key : Key (ZMod p)} (hkey : createKey (t.toBuilder lookup others tables) = .ok key)
    (hp : 3 * t.vars.length + 22 ≤ p) {params : Params (ZMod p)} {pub : List (ZMod p)} {table : Col → Nat → ZMod p}
    (htr : IsTrace t lookup key.size table) (hex : Execution (t.toBuilder lookup others tables) params key.size pub table) :
    ∃ a : Spec.Acir.Assignment p, Spec.Acir.Satisfies a Spec.Acir.noMemory ops ∧ pub = inputs.map a ++ List.replicate 8 0 := by
  obtain ⟨b, hb, hf, is, hin, hlen, hlt, hm⟩ := Draft.createCircuit_spec h
  obtain ⟨val, hval⟩ := hex.copies
  have hD : Distinct (ZMod p) (3 * t.vars.length + 22) := by
    intro i hi j hj e
    have := (ZMod.natCast_eq_natCast_iff' i j p).1 e
    rwa [Nat.mod_eq_of_lt (by omega), Nat.mod_eq_of_lt (by omega)] at this
  have h2 : (2 : ZMod p) ≠ 0 := by
    intro e
    have := hD 2 (by omega) 0 (by omega) (by exact_mod_cast e)
    omega
  obtain ⟨hA, hDe⟩ := trace_gates h2 (C109_size hkey).2 htr hex.gates hval
  have hM : Draft.Matches t (t.toBuilder lookup others tables) :=
    ⟨fun _ => rfl, fun _ => rfl, rfl, fun g hg => by
      refine List.mem_append_right _ ?_
      simp only [Draft.toBuilder, List.flatten_cons]
      exact List.mem_append_right _ (List.mem_append_right _ (List.mem_append_left _ (List.mem_map_of_mem hg))),
      fun row hrow j => hf.real_len ▸ valid_of_createKey hkey row hrow j⟩
  have hgood := hm (fun v => val (t.rl v)) ?_ ?_ ?_
  · refine ⟨fun v => val (t.rl v), satisfies_of_opSat hgood.1 _, ?_⟩
    have hpub := hval.publics
    rw [show (t.toBuilder lookup others tables).inputs = inputs ++ is from hf.inputs.trans hin, List.map_append] at hpub
    rw [← hpub]
    congr 1
    rw [← hlen]
    exact List.eq_replicate_iff.2 ⟨by simp, fun x hx => by
      obtain ⟨i, hi, rfl⟩ := List.mem_map.1 hx
      exact hgood.2 i hi⟩
  · obtain ⟨r, hr⟩ := hf.arith
    rw [← hr] at hA
    exact ⟨fun g hg => hA.one g (List.mem_append_left _ hg), fun i g g' hg hg' => hA.two i g g'
      (by rw [List.getElem?_append_left (List.getElem?_eq_some_iff.1 hg).1]; exact hg)
      (by rw [List.getElem?_append_left (List.getElem?_eq_some_iff.1 hg').1]; exact hg')⟩
  · exact fun l hl v hv => Draft.range_lists hb hf hM hval.tags (fun g hg h1 => hA.one g hg h1) hDe hD hl hv
  · intro u hu v hv e
    show val (t.rl u) = val (t.rl v)
    rw [hf.rl_old u hu, hf.rl_old v hv, e]

/-- Let no assignment satisfy the program with the public inputs `pub`.  Then whatever columns and messages a prover uses, the verifier of
the interactive proof rejects unless one of its challenges falls into a small set. -/
theorem C113_argument {toNat : ZMod p → Nat} {ops : List (Opcode (ZMod p))} {inputs : List Nat} {witness extra : List (ZMod p)}
    {t : Draft (ZMod p)} (h : Draft.createCircuit toNat ops inputs witness extra = .ok t) {lookup : List Row} {others : List (List Row)}
    {tables : Nat} {key : Key (ZMod p)} (hkey : createKey (t.toBuilder lookup others tables) = .ok key)
    {d D : Nat} (hd : key.size = 2 ^ d) (hD : d ≤ D) (hp : 5 * 2 ^ 28 + t.tag + 2 ^ d + 3 * t.vars.length + 30 ≤ p)
    (params : Params (ZMod p)) (table : Col → Nat → ZMod p) (hcols : HasKey key table) (htr : IsTrace t lookup key.size table)
    (hq : ∀ i < 2 ^ d, table .qLookup i = 0 ∨ table .qLookup i = 1)
    (pub : List (ZMod p)) (hpub : pub.length = inputs.length + 8)
    (hfalse : ¬ ∃ a : Spec.Acir.Assignment p, Spec.Acir.Satisfies a Spec.Acir.noMemory ops ∧ pub = inputs.map a ++ List.replicate 8 0) :
    ∃ Bβ : Finset (ZMod p), Bβ.card ≤ (10 * (t.toBuilder lookup others tables).rows.length) ^ 2 + 3 * (2 ^ d) ^ 2 ∧ ∀ β ∉ Bβ,
    ∃ Bγ : Finset (ZMod p), Bγ.card ≤ 5 * (t.toBuilder lookup others tables).rows.length + 4 + 4 * 2 ^ d ∧ ∀ γ ∉ Bγ,
    ∀ δ, publicInputDelta β γ pub key.publicOffset = .ok δ → ∀ zPerm inverses : Nat → ZMod p, zPerm 0 = 0 →
    ∃ Bα : Finset (ZMod p), Bα.card ≤ 27 ∧ ∀ α ∉ Bα,
    ∃ Bg : Finset (ZMod p), Bg.card ≤ 2 ^ d - 1 ∧ ∀ g ∉ Bg,
    ∃ bad : List (ZMod p) → Univariate (ZMod p) 8 → Finset (ZMod p), (∀ us u, (bad us u).card ≤ 7) ∧
      ∀ (ch : List (Univariate (ZMod p) 8) → ZMod p) (proof : SumcheckProof (ZMod p) 8),
        sumcheckVerify { params with beta := β, gamma := γ, publicInputDelta := δ } (alphaPowers α) (gateChallenges g D) ch D proof =
          .ok true →
        (∀ x, proof.evaluations x = extension (pad (2 ^ d) (complete (2 ^ d) zPerm inverses table x))
          ((challenges ch proof.univariates).take D)) →
        ∃ j < D, (challenges ch proof.univariates).getD j 0
          ∈ bad ((challenges ch proof.univariates).take j) (proof.univariates.getD j 0) := by
  obtain ⟨b, hb, hf, is, hin, hlen, -⟩ := Draft.createCircuit_spec h
  have hi : (t.toBuilder lookup others tables).inputs = inputs ++ is := hf.inputs.trans hin
  refine C109_sound hkey (T := t.tag + 1) ?_ hd hD ?_ ?_ params table hcols hq pub (by rw [hi, List.length_append, hlen, hpub]) fun hex =>
    hfalse (C113_sound h hkey (by omega) htr (hd ▸ hex))
  · intro e
    have : (t.toBuilder lookup others tables).rows.length = 0 := by rw [e]; rfl
    rw [Builder.rows, List.length_append, List.length_map, hi, List.length_append, hlen] at this
    omega
  · intro i hi j hj e
    have := (ZMod.natCast_eq_natCast_iff' i j p).1 e
    rwa [Nat.mod_eq_of_lt (by omega), Nat.mod_eq_of_lt (by omega)] at this
  · intro k hk
    obtain ⟨row, hrow, j, rfl⟩ := Draft.mem_used.1 hk
    have hv : row j < t.vars.length := hf.real_len ▸ valid_of_createKey hkey row hrow j
    have ht : ∀ n, (t.toBuilder lookup others tables).tauOf n = (b.tau.lookup n).getD 0 := fun n => by
      rw [Builder.tauOf]; exact congrArg (fun l => (List.lookup n l).getD 0) hf.tau
    show t.tg (t.rl (row j)) < _ ∧ (t.toBuilder lookup others tables).tauOf (t.tg (t.rl (row j))) < _
    rw [ht, hf.tag]
    rcases Draft.tag_cases hb hf hv with e | ⟨L, hL, e, -⟩ | ⟨L, hL, e, -⟩
    · rw [e, hb.tau_zero]; exact ⟨by omega, Nat.succ_pos _⟩
    · have := hb.nums_le L hL
      rw [e, (hb.tau L hL).1]; exact ⟨by omega, Nat.lt_succ_of_le this.2.2⟩
    · have := hb.nums_le L hL
      rw [e, (hb.tau L hL).2]; exact ⟨by omega, Nat.lt_succ_of_le this.1.2⟩

/-- An expression whose terms cancel is satisfied by every assignment, but there is no circuit for it: the code panics. -/
theorem C113_cancelling (toNat : ZMod p → Nat) (inputs : List Nat) (witness extra : List (ZMod p)) :
    (∀ a, Spec.Acir.Satisfies (p := p) a Spec.Acir.noMemory [.assertZero ⟨[], [(1, 0), (-1, 0)], 0⟩]) ∧
    Draft.createCircuit toNat [.assertZero ⟨[], [(1, 0), (-1, 0)], 0⟩] inputs witness extra =
      .error (.panic "produced an arithmetic zero gate") := by
  constructor
  · intro a
    exact ⟨by simp [Spec.Acir.Holds, Spec.Acir.eval], trivial⟩
  · have : Draft.acirFormat (F := ZMod p) [.assertZero ⟨[], [(1, 0), (-1, 0)], 0⟩] = .error (.panic "produced an arithmetic zero gate") := by
      simp [Draft.acirFormat, Draft.addOpcode, Draft.addExpression, Draft.linearTerms, Draft.insertTerm, Draft.splitQuads, Draft.mulQuads,
        Draft.fillQuads, Draft.restQuads, Draft.popTerm, Draft.check, Draft.Quad.isZero, bind, Except.bind, pure, Except.pure]
    rw [Draft.createCircuit, this]; rfl

end

namespace BuildDemo

/-- The field of the example. -/
abbrev p : Nat := 2013265921

instance prime_p : Fact (Nat.Prime p) := ⟨by
  refine lucas_primality _ 31 (by reduce_mod_char) fun q hq hd => ?_
  have h : q ∣ 2 ^ 27 * 15 := hd
  rcases (Nat.Prime.dvd_mul hq).1 h with h | h
  · rw [(Nat.prime_dvd_prime_iff_eq hq Nat.prime_two).1 (hq.dvd_of_dvd_pow h)]
    reduce_mod_char; decide +kernel
  · have : q ∈ Nat.divisors 15 := by simp [h]
    have h15 : Nat.divisors 15 = {1, 3, 5, 15} := by decide
    rw [h15] at this
    simp only [Finset.mem_insert, Finset.mem_singleton] at this
    rcases this with rfl | rfl | rfl | rfl
    · exact absurd hq (by norm_num)
    · reduce_mod_char; decide +kernel
    · reduce_mod_char; decide +kernel
    · exact absurd hq (by norm_num)⟩

/-- The product of the first two witnesses is the third, and that has three bits. -/
def ops : List (Opcode (ZMod p)) := [.assertZero ⟨[(1, 0, 1)], [(-1, 2)], 0⟩, .range (.witness 2) 3]

/-- The circuit, for the witness 2, 3, 6. -/
def circuit : Except Err (Draft (ZMod p)) := Draft.createCircuit ZMod.val ops [2] [2, 3, 6] []

/-- The circuit. -/
def t : Draft (ZMod p) := match circuit with
  | .ok t => t
  | .error _ => Draft.empty false

theorem t_ok : Draft.createCircuit ZMod.val ops [2] [2, 3, 6] [] = .ok t := by
  have h : circuit.isOk = true := by decide +kernel
  rw [t]
  rw [circuit] at *
  cases hc : Draft.createCircuit ZMod.val ops [2] [2, 3, 6] [] with
  | ok k => rfl
  | error e => rw [hc] at h; cases h

/-- The key of the circuit. -/
def key : Key (ZMod p) := match createKey (t.toBuilder [] [] 0) with
  | .ok k => k
  | .error _ => ⟨0, 0, ⟨[], [], 0⟩, fun _ _ => 0, fun _ _ => 0, fun _ _ => 0, fun _ => 0, fun _ => 0, [], 0⟩

theorem key_ok : createKey (t.toBuilder [] [] 0) = .ok key := by
  have h : (createKey (t.toBuilder [] [] 0)).isOk = true := by decide +kernel
  rw [key]
  cases hc : createKey (t.toBuilder [] [] 0) with
  | ok k => rfl
  | error e => rw [hc] at h; cases h

theorem size : key.size = 2 ^ 6 := by decide +kernel

/-- The selectors of the gates. -/
def selectors (c : Col) (i : Nat) : ZMod p :=
  if i < 10 then 0 else ((t.arith ++ t.delta)[i - 10]?).elim 0 fun g => g.selector c

/-- The table of the prover. -/
def table : Col → Nat → ZMod p
  | .wl => key.wires 0
  | .wr => key.wires 1
  | .wo => key.wires 2
  | .w4 => key.wires 3
  | .wlShift => fun i => key.wires 0 (i + 1)
  | .w4Shift => fun i => key.wires 3 (i + 1)
  | .sigma1 => key.sigma 0
  | .sigma2 => key.sigma 1
  | .sigma3 => key.sigma 2
  | .sigma4 => key.sigma 3
  | .id1 => key.id 0
  | .id2 => key.id 1
  | .id3 => key.id 2
  | .id4 => key.id 3
  | .lagrangeFirst => key.lagrangeFirst
  | .lagrangeLast => key.lagrangeLast
  | c => if c ∈ selectorCols then selectors c else fun _ => 0

theorem four (f : Fin 4 → Nat → ZMod p) : ![f 0, f 1, f 2, f 3] = f := by
  funext j; fin_cases j <;> rfl

theorem wires : wiresOf table = key.wires := four key.wires

theorem hasKey : HasKey key table := ⟨four key.sigma, four key.id, rfl, rfl⟩

theorem isTrace : IsTrace t [] key.size table where
  arith i g h := by
    have hi := (List.getElem?_eq_some_iff.1 h).1
    have hl : t.inputs.length = 9 := by decide +kernel
    have hs : ∀ c, selectors c (1 + t.inputs.length + 0 + i) = g.selector c := fun c => by
      rw [hl, selectors, if_neg (by omega), show 1 + 9 + 0 + i - 10 = i by omega, List.getElem?_append_left hi, h]; rfl
    intro c hc
    rw [← hs c]
    fin_cases hc <;> rfl
  delta i g h := by
    have hi := (List.getElem?_eq_some_iff.1 h).1
    have hl : t.inputs.length = 9 := by decide +kernel
    have hs : ∀ c, selectors c (1 + t.inputs.length + 0 + t.arith.length + i) = g.selector c := fun c => by
      rw [hl, selectors, if_neg (by omega), show 1 + 9 + 0 + t.arith.length + i - 10 = t.arith.length + i by omega,
        List.getElem?_append_right (by omega), Nat.add_sub_cancel_left, h]; rfl
    intro c hc
    rw [← hs c]
    fin_cases hc <;> rfl
  left _ _ := rfl
  fourth _ _ := rfl

/-- The parameters before the challenges. -/
def start : Params (ZMod p) := ⟨1, 2, 3, 0, 0, 0, 4, 5, 6, 7, 8⟩

theorem gates_ok : ∀ s : Subrel, s.isGate → ∀ i < key.size, s.value (ZMod p) start (fun c => table c i) = 0 := by
  have h : ∀ s ∈ Subrel.all, s ∉ [Subrel.perm0, .perm1, .lookup0, .lookup1, .lookup2] → ∀ i < 2 ^ 6,
      s.value (ZMod p) start (fun c => table c i) = 0 := by decide +kernel
  intro s hs
  rw [size]
  exact h s (by cases s <;> decide) hs

theorem noLookups : ∀ i < 2 ^ 6, table .qLookup i = 0 := by decide +kernel

theorem execution : Execution (t.toBuilder [] [] 0) start key.size (6 :: List.replicate 8 0) table where
  gates := gates_ok
  copies := by
    refine ⟨fun k => t.vars.getD k 0, ?_⟩
    obtain ⟨h1, h2⟩ := C105_wires key_ok
    rw [wires]
    exact ⟨h1, by decide +kernel, by decide +kernel⟩
  lookups i hi h1 := by
    rw [size] at hi
    rw [noLookups i hi] at h1
    exact absurd h1 (by decide)

/-- The hypotheses of the theorem hold of the example. -/
example : ∃ a : Spec.Acir.Assignment p, Spec.Acir.Satisfies a Spec.Acir.noMemory ops ∧ 6 :: List.replicate 8 0 = [2].map a ++ List.replicate 8 0 :=
  C113_sound t_ok key_ok (by decide +kernel) isTrace execution

/-- Nine has more than three bits. -/
theorem wrong : ¬ ∃ a : Spec.Acir.Assignment p, Spec.Acir.Satisfies a Spec.Acir.noMemory ops ∧
    9 :: List.replicate 8 0 = [2].map a ++ List.replicate 8 0 := by
  rintro ⟨a, ⟨-, h, -⟩, e⟩
  have e : 9 = a 2 := (List.cons.inj e).1
  rw [Spec.Acir.Holds, Spec.Acir.inputVal, ← e] at h
  revert h; decide +kernel

/-- The hypotheses of the theorem on the proof hold of the example. -/
example := C113_argument t_ok key_ok size (D := 28) (by decide) (by decide +kernel) start table hasKey isTrace
  (fun i hi => .inl (noLookups i hi)) (9 :: List.replicate 8 0) rfl wrong

end BuildDemo

end Verif.Honk
