import Verif.Yao.BristolLemmas
import Verif.Yao.ConstAddLemmas
import Verif.Yao.FieldCircuitLemmas

/-!
# C50, C51, C52, C62: garbled gates, garbled arithmetic, netlists

`encode d zero x` is the label of a wire with zero label `zero` that carries bit `x`.  `Computes c ins out` says that the
circuit code `c` returns `out` on plain bits `ins` and that garbling it and evaluating the garbled circuit gives the
labels of `out`, for every hash function, random stream, offset with colour bit one and input labels; `ComputesNat c ins n v`
says that the `n` output bits are those of the number `v` (`Verif/Spec/Garble.lean`).  `val` reads bits as a number.
-/

namespace Verif.Props

open Verif.Yao Verif.Yao.Circ

/-! ### C50: gates -/

section Gates

variable (H : Hash) (n : Nat) (d : Label) (a b : Label) (x y : Bool)

/-- The evaluator of an AND gate gets the label of the conjunction. -/
theorem C50_and (hd : d.color = true) :
    let g := garbleAndGate H n a b d
    evaluateAndGate H n (encode d a x) (encode d b y) g.1 g.2.1 = encode d g.2.2 (x && y) := by
  have h := andGate hd H n (enc_encode d a x) (enc_encode d b y)
  have h' := encodes_of_all3 (All3.cons h .nil)
  simpa [encodes] using h'

/-- The colour bit of the offset is needed: without it an AND gate may decode wrongly. -/
theorem C50_colour_needed : ∃ (H : Hash) (d a b : Label) (x y : Bool),
    let g := garbleAndGate H 0 a b d
    evaluateAndGate H 0 (encode d a x) (encode d b y) g.1 g.2.1 ≠ encode d g.2.2 (x && y) :=
  ⟨fun _ l => l, 2, 0, 4, true, false, by decide⟩

/-- XOR of labels is a label of the XOR: no block is needed. -/
theorem C50_xor : encode d a x ^^^ encode d b y = encode d (a ^^^ b) (x ^^ y) := by
  have h := enc_xor (enc_encode d a x) (enc_encode d b y)
  have h' := encodes_of_all3 (All3.cons h .nil)
  simpa [encodes] using h'

/-- Negation: the garbler moves its zero label, the evaluator keeps its label. -/
theorem C50_not : encode d a x = encode d (d ^^^ a) (!x) := by
  have h := enc_not (enc_encode d a x)
  have h' := encodes_of_all3 (All3.cons h .nil)
  simpa [encodes] using h'

example : (3 : Label).color = true := by decide

/-- Every netlist whose wires are in range, garbled and evaluated, gives the labels of its outputs. -/
theorem C50_netlist {c : Bristol.Circuit} (hc : c.InRange) {ins : List (List Bool)}
    (hl : ins.map List.length = c.inputWires.map List.length) : Computes c.code ins (c.outputs ins) :=
  Bristol.computes_code hc hl

/-- A full adder: wires 0, 1, 2 in, wires 6, 7 out. -/
def fullAdderNetlist : Bristol.Circuit where
  inputWires := [[0, 1], [2]]
  outputWires := [[6, 7]]
  gates := [.xor 0 1 3, .xor 0 2 4, .and 3 4 5, .xor 3 2 6, .xor 5 0 7]

example : fullAdderNetlist.InRange ∧
    fullAdderNetlist.outputs [[true, true], [true]] = [true, true] ∧
    fullAdderNetlist.outputs [[true, false], [true]] = [false, true] ∧
    fullAdderNetlist.outputs [[true, false], [false]] = [true, false] := by decide

end Gates

section Outputs

variable {R : Type} [Sample R Label] (H : Hash) (d : Label) (rng : R) (zeros : List Label) (xs : List Bool)

/-- The evaluator decodes the outputs, unless the hash confuses the two labels of an output wire. -/
theorem C50_evaluator_decodes (hl : zeros.length = xs.length)
    (hok : ∀ i (hi : i < zeros.length), H (.output i false) (zeros[i] ^^^ d) ≠ H (.output i false) zeros[i]) :
    ∃ e', Evaluator.outputEvaluator H (encodes d zeros xs)
      (freshEvaluator ((freshGarbler d rng).outputEvaluator H zeros).blocks) = .ok (xs, e') := by
  obtain ⟨e', new, h1, h2, -⟩ := adequate_outputs H (all3_encodes d hl) (freshGarbler d rng)
    (freshEvaluator []) (inStep_fresh d rng []) (fun i hi => by
      have := hok i hi
      simpa [OutputOk, freshGarbler] using this)
  refine ⟨{ e' with circuit := [] }, ?_⟩
  have := h2 []
  rw [h1]
  simpa [freshEvaluator, freshGarbler] using this

example : ∀ i (hi : i < [(0 : Label), 1].length),
    (fun (_ : Tweak) (l : Label) => l) (.output i false) ([(0 : Label), 1][i] ^^^ 3) ≠
      (fun (_ : Tweak) (l : Label) => l) (.output i false) [(0 : Label), 1][i] := by decide

/-- The garblers decode the labels the evaluator sends back. -/
theorem C50_garbler_decodes (hd : d ≠ 0) (hl : zeros.length = xs.length) :
    decodeBlocks d (encodes d zeros xs) zeros = .ok xs := decodeBlocks_enc hd (all3_encodes d hl)

end Outputs

/-! ### C51: integer circuits -/

section Circuits

variable {x y : List Bool} {n : Nat}

theorem val_lt' (hx : x.length = n) : val x < 2 ^ n := by
  have := val_lt x
  rwa [hx] at this

/-- Addition, with the carry as the highest bit. -/
theorem C51_add (hx : x.length = n) (hy : y.length = n) (hn : 0 < n) :
    ComputesNat (two fun _ a b => do
      let (s, c) ← binAddition a b
      pure (s ++ [c])) [x, y] (n + 1) (val x + val y) := by
  have h1 := val_lt' hx
  have h2 := val_lt' hy
  refine .two_of (by rw [pow_succ]; omega) fun hx' hy' => ?_
  refine (spec_binAddition' hx' hy' (by omega) (by rintro rfl; simp at hx; omega)).bind ?_
  rintro ⟨s, c⟩ ⟨s', c'⟩ ⟨ss, z, hs, hz, hl, e⟩
  refine CSpec.pure ⟨ss ++ [z], hs.append (.cons hz .nil), by simp [hl, hx], ?_⟩
  rw [val_append, hl, ← e]
  simp [val]

/-- Addition modulo `2^n`. -/
theorem C51_add_mod (hx : x.length = n) (hy : y.length = n) (hn : 0 < n) :
    ComputesNat (two fun _ => adderMod2k) [x, y] n ((val x + val y) % 2 ^ n) := by
  subst hx
  exact .two_of (Nat.mod_lt _ (Nat.two_pow_pos _)) fun hx' hy' =>
    spec_binAdditionNoCarry hx' hy' hy.symm (by rintro rfl; simp at hn)

/-- Subtraction: the difference modulo `2^n`, and the highest bit is set iff nothing was borrowed. -/
theorem C51_sub (hx : x.length = n) (hy : y.length = n) (hn : 0 < n) :
    ComputesNat (two fun _ a b => do
      let (s, c) ← binSubtraction a b
      pure (s ++ [c])) [x, y] (n + 1) (val x + 2 ^ n - val y) := by
  have h1 := val_lt' hx
  have h2 := val_lt' hy
  refine .two_of (by rw [pow_succ]; omega) fun hx' hy' => ?_
  refine (spec_binSubtraction hx' hy' (by omega) (by rintro rfl; simp at hx; omega)).bind ?_
  rintro ⟨s, c⟩ ⟨s', c'⟩ ⟨ss, z, hs, hz, hl, e⟩
  refine CSpec.pure ⟨ss ++ [z], hs.append (.cons hz .nil), by simp [hl, hy], ?_⟩
  rw [val_append, hl]
  rw [hy] at e ⊢
  simp only [val, Nat.mul_zero, Nat.add_zero]
  omega

/-- Subtraction of a public number from a shorter or equally long one. -/
theorem C51_sub_const (hx : 0 < x.length) (hy : x.length ≤ y.length) :
    ComputesNat (one fun _ a => do
      let (s, c) ← binSubtractionPartialByConstant a y
      pure (s ++ [c])) [x] (y.length + 1) (val x + 2 ^ y.length - val y) := by
  have h1 := val_lt x
  have h2 := val_lt y
  have h3 : 2 ^ x.length ≤ 2 ^ y.length := Nat.pow_le_pow_right (by omega) hy
  refine .one_of (by rw [pow_succ]; omega) fun hx' => ?_
  refine (spec_binSubtractionPartialByConstant y hx' hy (by rintro rfl; simp at hx)).bind ?_
  rintro ⟨s, c⟩ ⟨s', c'⟩ ⟨ss, z, hs, hz, hl, e⟩
  refine CSpec.pure ⟨ss ++ [z], hs.append (.cons hz .nil), by simp [hl], ?_⟩
  rw [val_append, hl]
  simp only [val, Nat.mul_zero, Nat.add_zero]
  omega

/-- Addition in the field of an odd modulus. -/
theorem C51_add_mod_p {p : Nat} (hp : p % 2 = 1) (hx : x.length = n) (hy : y.length = n) (hpn : p < 2 ^ n)
    (hxp : val x < p) (hyp : val y < p) :
    ComputesNat (two fun _ => adderModP p) [x, y] n ((val x + val y) % p) := by
  subst hx
  refine .two_of ((Nat.mod_lt _ (by omega)).trans hpn) fun hx' hy' => ?_
  have := spec_adderModPOut hp hx' hy' hy.symm hpn hxp hyp x.length
  unfold adderModP
  rw [hx'.len, hx'.len']
  refine this.mono ?_
  rintro r r' ⟨ss, hs, hl, e⟩
  refine ⟨ss, hs, by simpa using hl, ?_⟩
  rw [e, Nat.mod_eq_of_lt]
  exact (Nat.mod_lt _ (by omega)).trans hpn

/-- Comparisons. -/
theorem C51_ge (hx : x.length = n) (hy : y.length = n) (hn : 0 < n) :
    Computes (two fun _ a b => (fun w => [w]) <$> unsignedGe a b) [x, y] [decide (val y ≤ val x)] := by
  refine .two_of fun hx' hy' => ?_
  simp only [map_eq_pure_bind]
  exact (spec_unsignedGe hx' hy' (by omega) (by rintro rfl; simp at hx; omega)).bind
    fun r r' hr => CSpec.pure (.cons hr .nil)

theorem C51_lt (hx : x.length = n) (hy : y.length = n) (hn : 0 < n) :
    Computes (two fun _ a b => (fun w => [w]) <$> unsignedLt a b) [x, y] [decide (val x < val y)] := by
  refine .two_of fun hx' hy' => ?_
  simp only [map_eq_pure_bind]
  exact (spec_unsignedLt hx' hy' (by omega) (by rintro rfl; simp at hx; omega)).bind
    fun r r' hr => CSpec.pure (.cons hr .nil)

theorem C51_le (hx : x.length = n) (hy : y.length = n) (hn : 0 < n) :
    Computes (two fun _ a b => (fun w => [w]) <$> unsignedLe a b) [x, y] [decide (val x ≤ val y)] := by
  refine .two_of fun hx' hy' => ?_
  simp only [map_eq_pure_bind]
  exact (spec_unsignedLe hx' hy' (by omega) (by rintro rfl; simp at hx; omega)).bind
    fun r r' hr => CSpec.pure (.cons hr .nil)

theorem C51_gt (hx : x.length = n) (hy : y.length = n) (hn : 0 < n) :
    Computes (two fun _ a b => (fun w => [w]) <$> unsignedGt a b) [x, y] [decide (val y < val x)] := by
  refine .two_of fun hx' hy' => ?_
  simp only [map_eq_pure_bind]
  exact (spec_unsignedGt hx' hy' (by omega) (by rintro rfl; simp at hx; omega)).bind
    fun r r' hr => CSpec.pure (.cons hr .nil)

/-- Multiplexer. -/
theorem C51_mux (b : Bool) (hx : x.length = n) (hy : y.length = n) :
    Computes (sel fun _ => binMultiplex) [[b], x, y] (if b then y else x) := by
  refine .sel_of fun hb hx' hy' => ?_
  have := spec_binMultiplex hb hx' hy'
  have e : (x.zip y).map (fun p => if b = true then p.2 else p.1) = if b then y else x := by
    cases b
    · simp [List.map_fst_zip (show x.length ≤ y.length by omega)]
    · simp [List.map_snd_zip (show y.length ≤ x.length by omega)]
  rwa [e] at this

/-- Multiplication by a public number. -/
theorem C51_mul_const (hy : 0 < y.length) :
    ComputesNat (one fun _ a => binMulWithPublic a y) [x] (x.length + y.length) (val x * val y) :=
  .one_of (by rw [pow_add]; exact Nat.mul_lt_mul'' (val_lt x) (val_lt y)) fun hx' =>
    spec_binMulWithPublic hx' y (by rintro rfl; simp at hy)

theorem div_lt (hx : x.length = n) : val x / val y < 2 ^ n :=
  (Nat.div_le_self _ _).trans_lt (val_lt' hx)

/-- Division of two secret numbers. -/
theorem C51_div (hx : x.length = n) (hy : n ≤ y.length) (h0 : val y ≠ 0) :
    ComputesNat (two fun _ => binDiv) [x, y] n (val x / val y) := by
  subst hx
  exact .two_of (div_lt rfl) fun hx' hy' => spec_binDiv hx' hy' hy (by omega)

/-- Division by a public number. -/
theorem C51_div_by_public (hx : x.length = n) (hy : n ≤ y.length) (h0 : val y ≠ 0) :
    ComputesNat (one fun _ a => binDivByPublic a y) [x] n (val x / val y) := by
  subst hx
  exact .one_of (div_lt rfl) fun hx' => spec_binDivByPublic y hx' hy (by omega)

/-- Division of a public number. -/
theorem C51_div_by_shared (hx : x.length = n) (hn : 0 < n) (hy : n ≤ y.length) (h0 : val y ≠ 0) :
    ComputesNat (one fun _ b => binDivByShared x b) [y] n (val x / val y) := by
  subst hx
  exact .one_of (div_lt rfl) fun hy' => spec_binDivByShared x hy' (by rintro rfl; simp at hn) hy (by omega)

-- 5 + 6 = 11, 5 + 6 mod 8 = 3, 5 + 6 mod 7 = 4, 6 - 5, 6 / 5, 6 * 5
example : val [true, false, true] = 5 ∧ val [false, true, true] = 6 := by decide

example : ComputesNat (two fun _ => adderModP 7) [[true, false, true], [false, true, true]] 3 4 :=
  C51_add_mod_p (p := 7) rfl rfl rfl (by decide) (by decide) (by decide)

example : ComputesNat (two fun _ => binDiv) [[false, true, true], [false, true, false]] 3 3 :=
  C51_div rfl le_rfl (by decide)

end Circuits

/-! ### C52: the constant adder -/

section Constant

variable {x y : List Bool} {n : Nat}

/-- The claim is false: adding the constant zero to one gives three. -/
theorem C52_false : ¬ ∀ (n : Nat) (x y : List Bool), x.length = n → y.length = n → 0 < n →
    ComputesNat (one fun _ a => binAdditionConstantNoCarry a y) [x] n ((val x + val y) % 2 ^ n) := by
  intro h
  obtain ⟨out, h1, h2, h3, -⟩ := h 2 [true, false] [false, false] rfl rfl (by omega)
  have : (one (fun _ a => binAdditionConstantNoCarry a [false, false]) Bool false [[true, false]]).plain
      = .ok [true, true] := rfl
  rw [this] at h3
  cases h3
  exact absurd h2 (by decide)

/-- What the circuit computes: two too much if the number is odd and the constant is even. -/
theorem C52_actual {a b : Bool} (hy : x.length = y.length) (hx : x ≠ []) :
    ComputesNat (one fun _ ws => binAdditionConstantNoCarry ws (b :: y)) [a :: x] (x.length + 1)
      ((val (a :: x) + val (b :: y) + if a = true ∧ b = false then 2 else 0) % 2 ^ (x.length + 1)) := by
  refine .one_of (Nat.mod_lt _ (Nat.two_pow_pos _)) fun hx' => ?_
  have := spec_binAdditionConstantNoCarry b y hx' hy hx
  convert this using 7
  cases a <;> cases b <;> rfl

/-- Odd constants are added correctly. Missing: even constants, for which the claim is false. -/
theorem C52_odd_constant_partial (hx : x.length = n) (hy : y.length = n) (hn : 0 < n) (hodd : val y % 2 = 1) :
    ComputesNat (one fun _ a => binAdditionConstantNoCarry a y) [x] n ((val x + val y) % 2 ^ n) := by
  match x, y with
  | [], _ => simp at hx; omega
  | _ :: _, [] => simp at hy; omega
  | [a], [b] =>
    have hb : b = true := by cases b <;> simp_all [val]
    subst hx hb
    refine .one_of (Nat.mod_lt _ (Nat.two_pow_pos _)) fun hx' => ?_
    cases hx' with
    | cons h h' =>
      cases h'
      refine (CSpec.gNot h).bind fun s s' hs => CSpec.pure ⟨[!a], .cons hs .nil, rfl, ?_⟩
      cases a <;> rfl
  | a :: a' :: x, [b] => simp at hx hy; omega
  | [a], b :: b' :: y => simp at hx hy; omega
  | a :: a' :: x, b :: b' :: y =>
    have hb : b = true := by
      cases b
      · simp [val] at hodd
      · rfl
    subst hx hb
    have := C52_actual (x := a' :: x) (y := b' :: y) (a := a) (b := true) (by simpa using hy.symm) (by simp)
    simpa using this

example : ComputesNat (one fun _ a => binAdditionConstantNoCarry a [true, true, false]) [[true, false, true]] 3 0 :=
  C52_odd_constant_partial (n := 3) rfl rfl (by decide) (by decide)

end Constant

/-! ### C62: verified netlists -/

section Netlists

open Bristol

/-- No gate of a verified netlist reads a wire that has not been set: the default value of the wires does not matter,
whatever the wires are. -/
theorem C62_default_unused {n : Nat} {c c' : Bristol.Circuit} (hv : verify n c = .ok c') {I : Type}
    (ins : List (List I)) (d₁ d₂ : I) : evaluate c ins d₁ = evaluate c ins d₂ :=
  evaluate_default hv ins d₁ d₂

/-- Full statement, false: a verified netlist evaluates on all inputs of the right shape.  Verification accepts wire
numbers beyond the number of wires; evaluating such a netlist panics. -/
theorem C62_false : ¬ ∀ (n : Nat) (c c' : Bristol.Circuit) (ins : List (List Bool)), verify n c = .ok c' →
    ins.map List.length = c.inputWires.map List.length → ∃ out, (evaluate c ins false).plain = .ok out := by
  intro h
  obtain ⟨out, h⟩ := h 2 ⟨[[0]], [[7]], [.inv 0 7]⟩ _ [[true]] rfl rfl
  have : (evaluate (⟨[[0]], [[7]], [.inv 0 7]⟩ : Bristol.Circuit) [[true]] false).plain
      = .error (.panic "index out of bounds") := rfl
  rw [this] at h
  cases h

/-- Netlists with wires in range evaluate on all inputs of the right shape; the output bundles have the right sizes.
Missing: the range is not checked by the verification. -/
theorem C62_evaluates_partial {c : Bristol.Circuit} (hc : c.InRange) {ins : List (List Bool)}
    (hl : ins.map List.length = c.inputWires.map List.length) :
    ∃ out, (evaluate c ins false).plain = .ok out ∧ out.map List.length = c.outputWires.map List.length ∧
      out.flatten = c.outputs ins := by
  obtain ⟨out, h1, h2⟩ := (spec_evaluate hc (all3_plains ins) hl (z := false) (z' := false) ⟨rfl, rfl⟩).plain'
    (P := fun r => r = c.outputWires.map (List.map
      (runGates (assign (fun _ => false) (c.inputWires.flatten.zip ins.flatten)) c.gates))) (fun a b h => h.plains_eq)
  refine ⟨out, h1, ?_, ?_⟩
  · rw [h2, List.map_map]
    congr 1
    funext l
    simp
  · rw [h2, Bristol.Circuit.outputs, List.map_flatten]

example : verify 8 fullAdderNetlist = .ok fullAdderNetlist := rfl

end Netlists

end Verif.Props
