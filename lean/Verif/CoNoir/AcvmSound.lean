import Verif.CoNoir.AcvmPlain

/-!
# The solver on plain values: one opcode, all opcodes
-/

namespace Verif.Acvm

open Spec.Acir
open CircomVm (bind_ok ok_inj)

variable {p : Nat} [Fact p.Prime]

theorem witnessToValue_ok {W : Nat → Option (ZMod p)} {w : Nat} {v : ZMod p}
    (h : witnessToValue (plain p) W w = .ok v) : W w = some v := by
  unfold witnessToValue at h
  cases hw : W w with
  | none => rw [hw] at h; cases h
  | some x => rw [hw] at h; rw [ok_inj.mp h]

theorem witnessToValue_known {W : Nat → Option (ZMod p)} {w : Nat} {v : ZMod p} (h : W w = some v) :
    witnessToValue (plain p) W w = .ok v := by
  unfold witnessToValue
  rw [h]
  rfl

theorem inputToValue_ok {a : Assignment p} {W : Nat → Option (ZMod p)} {x : Input (ZMod p)} {v : ZMod p}
    (h : inputToValue (plain p) W x = .ok v) (ha : Extends a W) : inputVal a x = v := by
  cases x with
  | witness w => exact ha _ _ (witnessToValue_ok h)
  | constant c => exact ok_inj.mp h

theorem inputToValue_known {a : Assignment p} {W : Nat → Option (ZMod p)} {x : Input (ZMod p)} (ha : Extends a W)
    (h : inputKnown (known W) x) : inputToValue (plain p) W x = .ok (inputVal a x) := by
  cases x with
  | witness w =>
    obtain ⟨v, hv⟩ := exists_of_known h
    exact (witnessToValue_known hv).trans (congrArg _ (ha _ _ hv).symm)
  | constant c => rfl

theorem getBlock_ok {s : PSt p} {b : Nat} {l : List (ZMod p)} (h : getBlock (plain p) s b = .ok l) :
    s.memory b = some l := by
  unfold getBlock at h
  cases hw : s.memory b with
  | none => rw [hw] at h; cases h
  | some x => rw [hw] at h; rw [ok_inj.mp h]

theorem getBlock_some {s : PSt p} {b : Nat} {l : List (ZMod p)} (h : s.memory b = some l) :
    getBlock (plain p) s b = .ok l := by
  unfold getBlock
  rw [h]
  rfl

theorem plainGet_ok {i v : ZMod p} {l : List (ZMod p)} : Rep3.Lut.plainGet i l = .ok v ↔
    i.val < 2 ^ 64 ∧ l[i.val]? = some v := by
  unfold Rep3.Lut.plainGet Rep3.Lut.fieldToUsize
  by_cases h : i.val < 2 ^ 64
  · rw [if_pos h]
    dsimp only
    cases h' : l[i.val]? with
    | none => exact ⟨nofun, fun h => nomatch h.2⟩
    | some x => exact ⟨fun h1 => ⟨h, by rw [ok_inj.mp h1]⟩, fun h1 => ok_inj.mpr (Option.some.inj h1.2)⟩
  · rw [if_neg h]
    exact ⟨nofun, fun h1 => absurd h1.1 h⟩

theorem plainWrite_ok {i v : ZMod p} {l l' : List (ZMod p)} : Rep3.Lut.plainWrite i v l = .ok l' ↔
    i.val < 2 ^ 64 ∧ i.val < l.length ∧ l' = l.set i.val v := by
  unfold Rep3.Lut.plainWrite Rep3.Lut.fieldToUsize
  by_cases h : i.val < 2 ^ 64
  · rw [if_pos h]
    by_cases h' : i.val < l.length
    · simp only [if_pos h']
      exact ⟨fun h1 => ⟨h, h', (ok_inj.mp h1).symm⟩, fun h1 => ok_inj.mpr h1.2.2.symm⟩
    · simp [h']
  · rw [if_neg h]
    exact ⟨nofun, fun h1 => absurd h1.1 h⟩

theorem checkBitSize_ok {msg : String} {bits : Nat} {v : ZMod p} {u : Unit} :
    checkBitSize (plain p) msg bits v = .ok u ↔ v.val < 2 ^ bits := by
  unfold checkBitSize
  show (if bits < Nat.size v.val then Except.error (Err.err msg) else Except.ok ()) = .ok u ↔ _
  rw [← Nat.size_le]
  by_cases h : bits < Nat.size v.val
  · rw [if_pos h]
    simp; omega
  · rw [if_neg h]
    simp; omega

theorem checkOld_ok {old : Option (ZMod p)} {v : ZMod p} {u : Unit} :
    checkOld (plain p) old v = .ok u ↔ ∀ x, old = some x → x = v := by
  cases old with
  | none => simp [checkOld, pure, Except.pure]
  | some x =>
    show (if x ≠ v then Except.error (Err.err _) else Except.ok ()) = .ok u ↔ _
    by_cases h : x = v <;> simp [h]

theorem insertValue_ok {s s' : PSt p} {w : Nat} {v : ZMod p} :
    insertValue (plain p) s w v = .ok s' ↔ (∀ x, s.witness w = some x → x = v) ∧ s' = s.insert w v := by
  constructor
  · intro h
    obtain ⟨u, h1, h2⟩ := bind_ok h
    exact ⟨checkOld_ok.mp h1, (ok_inj.mp h2).symm⟩
  · rintro ⟨h1, rfl⟩
    unfold insertValue
    rw [checkOld_ok (u := ()) |>.mpr h1]
    rfl

theorem plainAnd_eq (l r : ZMod p) (bits : Nat) : plainAnd l r bits = (((l.val &&& r.val) % 2 ^ bits : Nat) : ZMod p) := by
  unfold plainAnd
  rw [Nat.one_shiftLeft, Nat.and_two_pow_sub_one_eq_mod]

theorem plainXor_eq (l r : ZMod p) (bits : Nat) : plainXor l r bits = (((l.val ^^^ r.val) % 2 ^ bits : Nat) : ZMod p) := by
  unfold plainXor
  rw [Nat.one_shiftLeft, Nat.and_two_pow_sub_one_eq_mod]

/-- The settled constraint of an opcode, if there is one, is satisfied. -/
def SettledHolds (a : Assignment p) (kn : Nat → Prop) (op : Opcode (ZMod p)) : Prop :=
  ∀ e, op = .assertZero e → (∀ w, mentions e w → kn w) → eval a e = 0

/-- What one step of the solver guarantees. -/
structure StepOk (s s' : PSt p) (op : Opcode (ZMod p)) : Prop where
  known : known s'.witness = learn (known s.witness) op
  only : ∀ a, Extends a s.witness → Holds a s.memory op → Extends a s'.witness
  memory : ∀ a, Extends a s.witness → s'.memory = next a s.memory op
  back : (∀ b i v, op = .memoryRead b i v → ¬ Acvm.known s.witness v) → ∀ a, Extends a s'.witness →
    Extends a s.witness ∧ (SettledHolds a (Acvm.known s.witness) op → Holds a s.memory op)

theorem stepOk_logic {s s' : PSt p} {pedantic : Bool} {op : ZMod p → ZMod p → Nat → Except Err (ZMod p)}
    {f : Nat → Nat → Nat} (hop : ∀ l r bits, op l r bits = .ok ((f l.val r.val % 2 ^ bits : Nat) : ZMod p))
    {x y : Input (ZMod p)} {bits o : Nat} (h : solveLogic (plain p) pedantic op s x y bits o = .ok s') :
    ∃ v, s' = s.insert o v ∧ (∀ x, s.witness o = some x → x = v) ∧
      ∀ a, Extends a s.witness → v = ((f (inputVal a x).val (inputVal a y).val % 2 ^ bits : Nat) : ZMod p) := by
  obtain ⟨l, h1, h⟩ := bind_ok h
  obtain ⟨r, h2, h⟩ := bind_ok h
  obtain ⟨_, _, h⟩ := bind_ok h
  obtain ⟨v, h3, h⟩ := bind_ok h
  obtain ⟨h4, rfl⟩ := insertValue_ok.mp h
  refine ⟨v, rfl, h4, fun a ha => ?_⟩
  rw [inputToValue_ok h1 ha, inputToValue_ok h2 ha]
  rw [hop] at h3
  exact (ok_inj.mp h3).symm

theorem step_ok {s s' : PSt p} {pedantic : Bool} {op : Opcode (ZMod p)} (h : step (plain p) pedantic s op = .ok s') :
    StepOk s s' op := by
  cases op with
  | assertZero e =>
    obtain ⟨-, hc⟩ := assertZero_cases h
    rcases hc with ⟨hk, rfl⟩ | ⟨w, v, hw, hm, hk, rfl, hv⟩
    · refine ⟨?_, fun a ha _ => ha, fun _ _ => rfl, fun _ a ha => ⟨ha, fun hs => hs e rfl hk⟩⟩
      funext u
      exact propext ⟨.inl, fun h => h.elim id (hk u)⟩
    · refine ⟨?_, fun a ha h => extends_insert ha ((hv a ha).mp h), fun _ _ => rfl, fun _ a ha => ?_⟩
      · rw [known_insert]
        funext u
        refine propext ⟨fun h => h.imp id fun (h : u = w) => h ▸ hm, fun h => h.elim .inl (hk u)⟩
      · obtain ⟨h1, h2⟩ := extends_of_insert ha (by simp [hw])
        exact ⟨h1, fun _ => (hv a h1).mpr h2⟩
  | memoryInit b init =>
    have h : solveMemoryInit (plain p) s b init = .ok s' := h
    unfold solveMemoryInit at h
    cases hb : s.memory b with
    | some l => rw [hb] at h; cases h
    | none =>
      rw [hb] at h
      dsimp only at h
      cases hl : lookupAll s.witness init with
      | none => rw [hl] at h; cases h
      | some vs =>
        rw [hl] at h
        obtain rfl : s.setBlock b vs = s' := ok_inj.mp h
        refine ⟨rfl, fun a ha _ => ha, fun a ha => ?_, fun _ a ha => ⟨ha, fun _ => hb⟩⟩
        rw [lookupAll_map ha hl]
        rfl
  | memoryRead b i v =>
    obtain ⟨x, h1, h⟩ := bind_ok (show solveMemoryRead (plain p) s b i v = .ok s' from h)
    obtain ⟨l, h2, h⟩ := bind_ok h
    obtain ⟨y, h3, h⟩ := bind_ok h
    obtain rfl := ok_inj.mp h
    have h1 := witnessToValue_ok h1
    have h2 := getBlock_ok h2
    have h3 := plainGet_ok.mp h3
    refine ⟨known_insert, fun a ha h => extends_insert ha ?_, fun _ _ => rfl, fun hf a ha => ?_⟩
    · obtain ⟨l', hl', h⟩ := h
      rw [h2] at hl'
      cases hl'
      rw [ha _ _ h1, h3.2] at h
      exact (Option.some.inj h).symm
    · have hn : s.witness v = none := by simpa [known] using hf b i v rfl
      obtain ⟨h4, h5⟩ := extends_of_insert ha (by simp [hn])
      exact ⟨h4, fun _ => ⟨l, h2, by rw [h4 _ _ h1, h5, h3.2]⟩⟩
  | memoryWrite b i v =>
    obtain ⟨x, h1, h⟩ := bind_ok (show solveMemoryWrite (plain p) s b i v = .ok s' from h)
    obtain ⟨y, h2, h⟩ := bind_ok h
    obtain ⟨l, h3, h⟩ := bind_ok h
    obtain ⟨l', h4, h⟩ := bind_ok h
    obtain rfl := ok_inj.mp h
    have h1 := witnessToValue_ok h1
    have h2 := witnessToValue_ok h2
    have h3 := getBlock_ok h3
    obtain ⟨h4, h5, rfl⟩ := plainWrite_ok.mp h4
    refine ⟨rfl, fun a ha _ => ha, fun a ha => ?_, fun _ a ha => ⟨ha, fun _ => ⟨l, h3, ?_⟩⟩⟩
    · show Function.update s.memory b _ = Function.update s.memory b _
      rw [h3, ha _ _ h1, ha _ _ h2]
      rfl
    · rw [show a i = x from ha _ _ h1]
      exact h5
  | range x bits =>
    obtain ⟨y, h1, h⟩ := bind_ok (show solveRange (plain p) s x bits = .ok s' from h)
    obtain ⟨_, h2, h⟩ := bind_ok h
    obtain rfl := ok_inj.mp h
    refine ⟨rfl, fun a ha _ => ha, fun _ _ => rfl, fun _ a ha => ⟨ha, fun _ => ?_⟩⟩
    show (inputVal a x).val < 2 ^ bits
    rw [inputToValue_ok h1 ha]
    exact checkBitSize_ok.mp h2
  | and x y bits o =>
    obtain ⟨v, rfl, ho, hv⟩ := stepOk_logic (f := fun l r => l &&& r)
      (fun l r bits => congrArg Except.ok (plainAnd_eq l r bits)) h
    refine ⟨known_insert, fun a ha h => extends_insert ha (h.trans (hv a ha).symm), fun _ _ => rfl, fun _ a ha => ?_⟩
    obtain ⟨h1, h2⟩ := extends_of_insert ha ho
    exact ⟨h1, fun _ => h2.trans (hv a h1)⟩
  | xor x y bits o =>
    obtain ⟨v, rfl, ho, hv⟩ := stepOk_logic (f := fun l r => l ^^^ r)
      (fun l r bits => congrArg Except.ok (plainXor_eq l r bits)) h
    refine ⟨known_insert, fun a ha h => extends_insert ha (h.trans (hv a ha).symm), fun _ _ => rfl, fun _ a ha => ?_⟩
    obtain ⟨h1, h2⟩ := extends_of_insert ha ho
    exact ⟨h1, fun _ => h2.trans (hv a h1)⟩
  | call => cases h

theorem logic_complete {a : Assignment p} {s : PSt p} {pedantic : Bool}
    {op : ZMod p → ZMod p → Nat → Except Err (ZMod p)}
    {f : Nat → Nat → Nat} (hop : ∀ l r bits, op l r bits = .ok ((f l.val r.val % 2 ^ bits : Nat) : ZMod p))
    {x y : Input (ZMod p)} {bits o : Nat} (ha : Extends a s.witness)
    (hd : inputKnown (known s.witness) x ∧ inputKnown (known s.witness) y ∧
      (inputVal a x).val < 2 ^ bits ∧ (inputVal a y).val < 2 ^ bits)
    (h : a o = ((f (inputVal a x).val (inputVal a y).val % 2 ^ bits : Nat) : ZMod p)) :
    ∃ s', solveLogic (plain p) pedantic op s x y bits o = .ok s' := by
  refine ⟨s.insert o (a o), ?_⟩
  unfold solveLogic
  rw [inputToValue_known ha hd.1, inputToValue_known ha hd.2.1]
  have hc : checkOperands (plain p) pedantic bits (inputVal a x) (inputVal a y) = .ok () := by
    unfold checkOperands
    cases pedantic
    · rfl
    · rw [checkBitSize_ok (u := ()) |>.mpr hd.2.2.1, checkBitSize_ok (u := ()) |>.mpr hd.2.2.2]
      rfl
  show (checkOperands (plain p) pedantic bits (inputVal a x) (inputVal a y) >>= fun _ =>
    op (inputVal a x) (inputVal a y) bits >>= insertValue (plain p) s o) = _
  rw [hc, hop, ← h]
  exact insertValue_ok.mpr ⟨fun z hz => (ha _ _ hz).symm, rfl⟩

theorem step_complete {a : Assignment p} {s : PSt p} {pedantic : Bool} {op : Opcode (ZMod p)}
    (ha : Extends a s.witness) (h : Holds a s.memory op) (hd : Determined a (known s.witness) op) :
    ∃ s', step (plain p) pedantic s op = .ok s' := by
  cases op with
  | assertZero e =>
    obtain ⟨hok, hlen, h0⟩ := hd
    obtain ⟨qc, h1, -⟩ := simplify_ok ha hok
    show ∃ s', solveAssertZero (plain p) s e = .ok s'
    unfold solveAssertZero
    rw [h1]
    show ∃ s', solveSimplified (plain p) s ⟨unknowns a (known s.witness) e, qc⟩ = .ok s'
    generalize unknowns a (known s.witness) e = l at hlen h0
    rcases l with _ | ⟨⟨q, w⟩, _ | ⟨t, l⟩⟩
    · exact ⟨s, rfl⟩
    · refine ⟨s.insert w (-qc / q), ?_⟩
      show (plainSolveEquation q qc >>= fun x => Pure.pure (s.insert w x)) = _
      unfold plainSolveEquation
      rw [if_neg (h0 (q, w) (by simp))]
      rfl
    · simp at hlen
  | memoryInit b init =>
    obtain ⟨vs, hvs⟩ := lookupAll_known hd
    refine ⟨s.setBlock b vs, ?_⟩
    show solveMemoryInit (plain p) s b init = _
    unfold solveMemoryInit
    rw [show s.memory b = none from h, hvs]
    rfl
  | memoryRead b i v =>
    obtain ⟨l, hl, h⟩ := h
    obtain ⟨x, hx⟩ := exists_of_known hd.1
    refine ⟨s.insert v (a v), ?_⟩
    show solveMemoryRead (plain p) s b i v = _
    unfold solveMemoryRead
    rw [witnessToValue_known hx, getBlock_some hl]
    show (Rep3.Lut.plainGet x l >>= fun v' => Pure.pure (s.insert v v')) = _
    have h2 := hd.2
    rw [show a i = x from ha _ _ hx] at h h2
    rw [plainGet_ok.mpr ⟨h2, h⟩]
    rfl
  | memoryWrite b i v =>
    obtain ⟨l, hl, h⟩ := h
    obtain ⟨x, hx⟩ := exists_of_known hd.1
    obtain ⟨y, hy⟩ := exists_of_known hd.2.1
    refine ⟨s.setBlock b (l.set x.val y), ?_⟩
    show solveMemoryWrite (plain p) s b i v = _
    unfold solveMemoryWrite
    rw [witnessToValue_known hx, witnessToValue_known hy, getBlock_some hl]
    show (Rep3.Lut.plainWrite x y l >>= fun l => Pure.pure (s.setBlock b l)) = _
    have h2 := hd.2.2
    rw [show a i = x from ha _ _ hx] at h h2
    rw [plainWrite_ok.mpr ⟨h2, h, rfl⟩]
    rfl
  | range x bits =>
    refine ⟨s, ?_⟩
    show solveRange (plain p) s x bits = _
    unfold solveRange
    rw [inputToValue_known ha hd]
    show (checkBitSize (plain p) _ bits (inputVal a x) >>= fun _ => Pure.pure s) = _
    rw [checkBitSize_ok (u := ()) |>.mpr h]
    rfl
  | and x y bits o =>
    exact logic_complete (f := fun l r => l &&& r) (fun l r bits => congrArg Except.ok (plainAnd_eq l r bits)) ha hd h
  | xor x y bits o =>
    exact logic_complete (f := fun l r => l ^^^ r) (fun l r bits => congrArg Except.ok (plainXor_eq l r bits)) ha hd h
  | call => exact hd.elim

/-! ### All opcodes -/

theorem steps_known {pedantic : Bool} : ∀ {ops : List (Opcode (ZMod p))} {s s' : PSt p},
    steps (plain p) pedantic s ops = .ok s' → known s'.witness = learnAll (known s.witness) ops
  | [], s, s', h => by rw [← ok_inj.mp (show Except.ok s = Except.ok s' from h)]; rfl
  | op :: ops, s, s', h => by
    obtain ⟨t, h1, h2⟩ := bind_ok (show (step (plain p) pedantic s op >>= fun s => steps (plain p) pedantic s ops) = _ from h)
    rw [steps_known h2, (step_ok h1).known]
    rfl

theorem steps_only {pedantic : Bool} {a : Assignment p} : ∀ {ops : List (Opcode (ZMod p))} {s s' : PSt p},
    steps (plain p) pedantic s ops = .ok s' → Extends a s.witness → Satisfies a s.memory ops → Extends a s'.witness
  | [], s, s', h, ha, _ => by rw [← ok_inj.mp (show Except.ok s = Except.ok s' from h)]; exact ha
  | op :: ops, s, s', h, ha, hs => by
    obtain ⟨t, h1, h2⟩ := bind_ok (show (step (plain p) pedantic s op >>= fun s => steps (plain p) pedantic s ops) = _ from h)
    have ok := step_ok h1
    exact steps_only h2 (ok.only a ha hs.1) (by rw [ok.memory a ha]; exact hs.2)

theorem steps_back {pedantic : Bool} {a : Assignment p} : ∀ {ops : List (Opcode (ZMod p))} {s s' : PSt p},
    steps (plain p) pedantic s ops = .ok s' → FreshReads (known s.witness) ops → Extends a s'.witness →
      Extends a s.witness ∧ ((∀ e, IsSettled (known s.witness) ops e → eval a e = 0) → Satisfies a s.memory ops)
  | [], s, s', h, _, ha => by
    rw [← ok_inj.mp (show Except.ok s = Except.ok s' from h)] at ha
    exact ⟨ha, fun _ => trivial⟩
  | op :: ops, s, s', h, hf, ha => by
    obtain ⟨t, h1, h2⟩ := bind_ok (show (step (plain p) pedantic s op >>= fun s => steps (plain p) pedantic s ops) = _ from h)
    have ok := step_ok h1
    obtain ⟨h3, h4⟩ := steps_back h2 (by rw [ok.known]; exact hf.2) ha
    obtain ⟨h5, h6⟩ := ok.back hf.1 a h3
    refine ⟨h5, fun hs => ⟨h6 fun e he hk => hs e (.inl ⟨he, hk⟩), ?_⟩⟩
    rw [← ok.memory a h5]
    refine h4 fun e he => hs e (.inr ?_)
    rw [ok.known] at he
    exact he

theorem settled_of_satisfies {a : Assignment p} : ∀ {ops : List (Opcode (ZMod p))} {kn : Nat → Prop} {mem : Memory p},
    Satisfies a mem ops → ∀ e, IsSettled kn ops e → eval a e = 0
  | [], _, _, _, _, h => h.elim
  | op :: ops, kn, mem, hs, e, h => by
    rcases h with ⟨rfl, -⟩ | h
    · exact hs.1
    · exact settled_of_satisfies hs.2 e h

theorem steps_complete {pedantic : Bool} {a : Assignment p} : ∀ {ops : List (Opcode (ZMod p))} {s : PSt p},
    Extends a s.witness → Satisfies a s.memory ops → Solvable a (known s.witness) ops →
      ∃ s', steps (plain p) pedantic s ops = .ok s'
  | [], s, _, _, _ => ⟨s, rfl⟩
  | op :: ops, s, ha, hs, hd => by
    obtain ⟨t, h1⟩ := step_complete (pedantic := pedantic) ha hs.1 hd.1
    have ok := step_ok h1
    obtain ⟨s', h2⟩ := steps_complete (pedantic := pedantic) (ok.only a ha hs.1) (by rw [ok.memory a ha]; exact hs.2)
      (by rw [ok.known]; exact hd.2)
    exact ⟨s', by rw [steps, h1]; exact h2⟩

/-! ### The output -/

theorem collectShared_plain {W : Nat → Option (ZMod p)} : ∀ {ws : List Nat} {l : List (ZMod p)},
    collectShared (plain p) W ws = .ok l → l = [] ∧ ∀ w ∈ ws, known W w
  | [], l, h => ⟨(ok_inj.mp (show Except.ok [] = Except.ok l from h)).symm, by simp⟩
  | w :: ws, l, h => by
    unfold collectShared at h
    cases hw : W w with
    | none => rw [hw] at h; cases h
    | some v =>
      rw [hw] at h
      obtain ⟨l', h1, h2⟩ := bind_ok h
      obtain ⟨rfl, h3⟩ := collectShared_plain h1
      refine ⟨(ok_inj.mp h2).symm, fun u hu => ?_⟩
      rcases List.mem_cons.mp hu with rfl | hu
      · exact known_of hw
      · exact h3 u hu

theorem collectShared_known {W : Nat → Option (ZMod p)} : ∀ {ws : List Nat}, (∀ w ∈ ws, known W w) →
    collectShared (plain p) W ws = .ok []
  | [], _ => rfl
  | w :: ws, h => by
    obtain ⟨v, hv⟩ := exists_of_known (h w List.mem_cons_self)
    unfold collectShared
    rw [hv]
    show (collectShared (plain p) W ws >>= _) = _
    rw [collectShared_known fun u hu => h u (List.mem_cons_of_mem _ hu)]
    rfl

theorem publish_plain {a : Assignment p} : ∀ {ws : List Nat} {o : List (ZMod p)} {s : PSt p} {acc : List (ZMod p)},
    Extends a s.witness → (∀ w ∈ ws, known s.witness w) → publish (plain p) ws o s acc = .ok (s, acc ++ ws.map a)
  | [], _, s, acc, _, _ => by simp [publish, pure, Except.pure]
  | w :: ws, o, s, acc, ha, h => by
    obtain ⟨v, hv⟩ := exists_of_known (h w List.mem_cons_self)
    unfold publish
    rw [hv]
    show publish (plain p) ws o s (acc ++ [v]) = _
    rw [publish_plain ha fun u hu => h u (List.mem_cons_of_mem _ hu)]
    simp [ha _ _ hv]

theorem solve_iff {pedantic : Bool} {W W' : Nat → Option (ZMod p)} {ops : List (Opcode (ZMod p))} {returns : List Nat}
    {out : List (ZMod p)} : solve (plain p) pedantic W ops returns = .ok (W', out) ↔
      ∃ s, steps (plain p) pedantic ⟨W, fun _ => none⟩ ops = .ok s ∧ W' = s.witness ∧ (∀ w ∈ returns, known W' w) ∧
        ∀ a, Extends a W' → out = returns.reverse.map a := by
  constructor
  · intro h
    obtain ⟨s, h1, h⟩ := bind_ok h
    obtain ⟨r, h2, h⟩ := bind_ok h
    obtain ⟨l, h3, h2⟩ := bind_ok h2
    obtain ⟨l', h4, h6⟩ := bind_ok h2
    obtain ⟨rfl, hk⟩ := collectShared_plain h3
    have hk' : ∀ w ∈ returns.reverse, known s.witness w := fun w hw => hk w (List.mem_reverse.mp hw)
    have hp : ∀ a, Extends a s.witness → r = (s, returns.reverse.map a) := by
      intro a ha
      rw [publish_plain ha hk'] at h6
      simpa using (ok_inj.mp h6).symm
    have hr := hp _ (extends_someExt s.witness)
    have hW : (r.1.witness, r.2) = (W', out) := ok_inj.mp h
    have h5 : W' = s.witness := by rw [← (Prod.mk.inj hW).1, hr]
    refine ⟨s, h1, h5, by rw [h5]; exact hk, fun a ha => ?_⟩
    rw [← (Prod.mk.inj hW).2, hp a (by rw [← h5]; exact ha)]
  · rintro ⟨s, h1, rfl, hk, ho⟩
    have ha := extends_someExt s.witness
    unfold solve
    rw [h1]
    show (openResults (plain p) s returns >>= _) = _
    unfold openResults
    rw [collectShared_known hk]
    show (publish (plain p) returns.reverse [] s [] >>= _) = _
    rw [publish_plain ha fun w hw => hk w (List.mem_reverse.mp hw), ho _ ha]
    rfl

end Verif.Acvm
