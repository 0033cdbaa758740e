import Verif.CoNoir.AcvmSound
import Verif.Spec.AcirShares

/-!
# Collaborative runs of the solver correspond to plain ones

If the operations of a driver on shares correspond to those of the plain driver, then so do the runs of the solver, for every
program.
-/

namespace Verif.Acvm

open Spec.Acir
open CircomVm (VmVal MonadRel RelW bind_ok ok_inj)

/-- The operations of a driver on shares correspond to those of the plain driver. `bad`: something can go wrong in
divisions by a secret. -/
structure DriverSim {ι : Type} {m : Type → Type} [Monad m] {p : Nat} [Fact p.Prime] {L A : Type}
    (R : MonadRel ι m (Except Err)) (D : Driver m (VmVal (ZMod p) A) L (ZMod p) A) (Sh : (ι → A) → ZMod p → Prop)
    (LR : (ι → L) → List (ZMod p) → Prop) (S : Support p) (bad : Prop) : Prop where
  zero : D.zero = .pub 0
  ofPub : D.ofPub = .pub
  isShared : D.isShared = VmVal.isArith
  getShared : D.getShared = valShared
  getPublic : D.getPublic = valPublic
  addAssignWithPublic : ∀ c {x v}, IsVal Sh x v →
    R.Rel (IsVal Sh) (fun i => D.addAssignWithPublic c (x i)) ((plain p).addAssignWithPublic c v)
  addAssign : ∀ {x v y u}, IsVal Sh x v → IsVal Sh y u →
    R.Rel (IsVal Sh) (fun i => D.addAssign (x i) (y i)) ((plain p).addAssign v u)
  mulWithPublic : ∀ c {x v}, IsVal Sh x v →
    R.Rel (IsVal Sh) (fun i => D.mulWithPublic c (x i)) ((plain p).mulWithPublic c v)
  solveMulTerm : ∀ c {x v y u}, S.mul c → IsVal Sh x v → IsVal Sh y u →
    R.Rel (IsVal Sh) (fun i => D.solveMulTerm c (x i) (y i)) ((plain p).solveMulTerm c v u)
  solveLinearTerm : ∀ c {x v y u}, IsVal Sh x v → IsVal Sh y u →
    R.Rel (IsVal Sh) (fun i => D.solveLinearTerm c (x i) (y i)) ((plain p).solveLinearTerm c v u)
  solveEquation : ∀ {x v y u}, (bad ∨ x = fun _ => .pub v) → IsVal Sh x v → IsVal Sh y u →
    R.Rel (IsVal Sh) (fun i => D.solveEquation (x i) (y i)) ((plain p).solveEquation v u)
  initLut : ∀ {x vs}, S.lut vs.length → Cols (IsVal Sh) x vs → R.Rel LR (fun i => D.initLut (x i)) ((plain p).initLut vs)
  readLut : ∀ {x v l vs}, IsVal Sh x v → LR l vs →
    R.Rel (IsVal Sh) (fun i => D.readLut (x i) (l i)) ((plain p).readLut v vs)
  writeLut : ∀ {x v y u l vs}, IsVal Sh x v → IsVal Sh y u → LR l vs →
    R.Rel LR (fun i => D.writeLut (x i) (y i) (l i)) ((plain p).writeLut v u vs)
  bitwiseAnd : ∀ {x v y u bits}, S.and bits → IsVal Sh x v → IsVal Sh y u →
    R.Rel (IsVal Sh) (fun i => D.bitwiseAnd (x i) (y i) bits) ((plain p).bitwiseAnd v u bits)
  bitwiseXor : ∀ {x v y u bits}, S.xor bits → IsVal Sh x v → IsVal Sh y u →
    R.Rel (IsVal Sh) (fun i => D.bitwiseXor (x i) (y i) bits) ((plain p).bitwiseXor v u bits)
  openMany : ∀ {x vs}, Cols Sh x vs → R.Rel (fun a _ => a = fun _ => vs) (fun i => D.openMany (x i)) ((plain p).openMany [])
  fail : ∀ {α β : Type} (Q : (ι → α) → β → Prop) (q : ι → m α) e, R.Rel Q q (.error e)
  result : ∀ {α β : Type} {Q : (ι → α) → β → Prop} {q : ι → m α} {r}, R.Rel Q q r →
    R.Rel (fun a b => Q a b ∧ r = .ok b) q r

variable {ι : Type} {m : Type → Type} [Monad m] {p : Nat} [Fact p.Prime] {L A : Type}
  {R : MonadRel ι m (Except Err)} {D : Driver m (VmVal (ZMod p) A) L (ZMod p) A} {Sh : (ι → A) → ZMod p → Prop}
  {LR : (ι → L) → List (ZMod p) → Prop} {S : Support p} {bad : Prop}

/-- Witness maps of related values. -/
abbrev TMap (Sh : (ι → A) → ZMod p → Prop) : Type := Nat → Option (RelW (IsVal Sh))

/-- The map of a party. -/
def TMap.left (i : ι) (T : TMap Sh) : Nat → Option (VmVal (ZMod p) A) := fun w => (T w).map (RelW.left i)

/-- The plain map. -/
def TMap.right (T : TMap Sh) : Nat → Option (ZMod p) := fun w => (T w).map RelW.right

/-- States with related contents. -/
abbrev TSt (Sh : (ι → A) → ZMod p → Prop) (LR : (ι → L) → List (ZMod p) → Prop) : Type :=
  St (RelW (IsVal Sh)) (RelW LR)

/-- The state of a party. -/
def TSt.left (i : ι) (s : TSt Sh LR) : St (VmVal (ZMod p) A) L :=
  ⟨TMap.left i s.witness, fun b => (s.memory b).map (RelW.left i)⟩

/-- The plain state. -/
def TSt.right (s : TSt Sh LR) : PSt p := ⟨TMap.right s.witness, fun b => (s.memory b).map RelW.right⟩

/-- Related states. -/
def StR (Sh : (ι → A) → ZMod p → Prop) (LR : (ι → L) → List (ZMod p) → Prop) (a : ι → St (VmVal (ZMod p) A) L) (b : PSt p) :
    Prop := ∃ s : TSt Sh LR, a = (fun i => s.left i) ∧ b = s.right

theorem left_insert (s : TSt Sh LR) (w : Nat) (r : RelW (IsVal Sh)) (i : ι) :
    (TSt.left i s).insert w (r.left i) = TSt.left i (s.insert w r) := by
  unfold TSt.left St.insert TMap.left
  congr 1
  funext u
  by_cases h : u = w
  · subst h; simp
  · simp [h]

theorem right_insert (s : TSt Sh LR) (w : Nat) (r : RelW (IsVal Sh)) :
    (TSt.right s).insert w r.right = TSt.right (s.insert w r) := by
  unfold TSt.right St.insert TMap.right
  congr 1
  funext u
  by_cases h : u = w
  · subst h; simp
  · simp [h]

theorem stR_insert (s : TSt Sh LR) (w : Nat) {x : ι → VmVal (ZMod p) A} {v : ZMod p} (h : IsVal Sh x v) :
    StR Sh LR (fun i => (TSt.left i s).insert w (x i)) (s.right.insert w v) :=
  ⟨s.insert w ⟨x, v, h⟩, funext fun i => left_insert s w ⟨x, v, h⟩ i, right_insert s w ⟨x, v, h⟩⟩

theorem stR_setBlock (s : TSt Sh LR) (b : Nat) {x : ι → L} {v : List (ZMod p)} (h : LR x v) :
    StR Sh LR (fun i => (TSt.left i s).setBlock b (x i)) (s.right.setBlock b v) := by
  refine ⟨s.setBlock b ⟨x, v, h⟩, funext fun i => ?_, ?_⟩
  · unfold TSt.left St.setBlock
    congr 1
    funext u
    by_cases h : u = b
    · subst h; simp [RelW.left]
    · simp [h]
  · unfold TSt.right St.setBlock
    congr 1
    funext u
    by_cases h : u = b
    · subst h; simp
    · simp [h]

theorem known_right (T : TMap Sh) : known T.right = known T := by
  funext w
  simp [known, TMap.right]

/-- Related occurrences of unknown witnesses. -/
def TermR (Sh : (ι → A) → ZMod p → Prop) (bad : Prop) (x : ι → VmVal (ZMod p) A × Nat) (t : ZMod p × Nat) : Prop :=
  ∃ y, (x = fun i => (y i, t.2)) ∧ IsVal Sh y t.1 ∧ (bad ∨ y = fun _ => .pub t.1)

/-- Related accumulators. -/
def AccR (Sh : (ι → A) → ZMod p → Prop) (bad : Prop) (a : ι → Acc (VmVal (ZMod p) A)) (b : Acc (ZMod p)) : Prop :=
  ∃ l q, (a = fun i => ⟨l i, q i⟩) ∧ Cols (TermR Sh bad) l b.linear ∧ IsVal Sh q b.qc

namespace DriverSim

variable (hD : DriverSim R D Sh LR S bad)
include hD

theorem mulTerms (T : TMap Sh) : ∀ (ts : List (ZMod p × Nat × Nat)) {a : ι → Acc (VmVal (ZMod p) A)} {b : Acc (ZMod p)},
    (∀ t ∈ ts, t.1 ≠ 0 → S.mul t.1) → (∀ t ∈ ts, t.1 ≠ 0 → (¬ known T t.2.1 ∨ ¬ known T t.2.2) → bad) → AccR Sh bad a b →
    R.Rel (AccR Sh bad) (fun i => evaluateMulTerms D (T.left i) ts (a i)) (evaluateMulTerms (plain p) T.right ts b)
  | [], a, b, _, _, h => R.pure h
  | (c, l, r) :: ts, a, b, hm, hb, h => by
    have hm' : ∀ t ∈ ts, t.1 ≠ 0 → S.mul t.1 := fun t ht => hm t (List.mem_cons_of_mem _ ht)
    have hb' : ∀ t ∈ ts, t.1 ≠ 0 → (¬ known T t.2.1 ∨ ¬ known T t.2.2) → bad :=
      fun t ht => hb t (List.mem_cons_of_mem _ ht)
    unfold evaluateMulTerms
    by_cases hc : c = 0
    · simp only [if_pos hc]
      exact mulTerms T ts hm' hb' h
    · have hm0 := hm (c, l, r) List.mem_cons_self hc
      have hb0 := hb (c, l, r) List.mem_cons_self hc
      simp only [if_neg hc, TMap.left, TMap.right]
      obtain ⟨al, aq, rfl, h1, h2⟩ := h
      cases hl : T l with
      | none =>
        cases hr : T r with
        | none => exact hD.fail _ _ _
        | some y =>
          refine R.bind (hD.mulWithPublic c y.rel) fun x v hx => ?_
          refine mulTerms T ts hm' hb' ⟨fun i => al i ++ [(x i, l)], aq, rfl, h1.append (Cols.cons ?_ Cols.nil), h2⟩
          exact ⟨x, rfl, hx, .inl (hb0 (.inl (by simp [known, hl])))⟩
      | some x =>
        cases hr : T r with
        | none =>
          refine R.bind (hD.mulWithPublic c x.rel) fun y v hy => ?_
          refine mulTerms T ts hm' hb' ⟨fun i => al i ++ [(y i, r)], aq, rfl, h1.append (Cols.cons ?_ Cols.nil), h2⟩
          exact ⟨y, rfl, hy, .inl (hb0 (.inr (by simp [known, hr])))⟩
        | some y =>
          refine R.bind (hD.solveMulTerm c hm0 x.rel y.rel) fun z v hz => ?_
          refine R.bind (hD.addAssign h2 hz) fun q v' hq => ?_
          exact mulTerms T ts hm' hb' ⟨al, q, rfl, h1, hq⟩

theorem linearTerms (T : TMap Sh) : ∀ (ts : List (ZMod p × Nat)) {a : ι → Acc (VmVal (ZMod p) A)} {b : Acc (ZMod p)},
    AccR Sh bad a b →
    R.Rel (AccR Sh bad) (fun i => evaluateLinearTerms D (T.left i) ts (a i)) (evaluateLinearTerms (plain p) T.right ts b)
  | [], a, b, h => R.pure h
  | (q, w) :: ts, a, b, h => by
    unfold evaluateLinearTerms
    simp only [TMap.left, TMap.right]
    obtain ⟨al, aq, rfl, h1, h2⟩ := h
    cases hw : T w with
    | none =>
      refine linearTerms T ts ⟨fun i => al i ++ [(D.ofPub q, w)], aq, rfl, h1.append (Cols.cons ?_ Cols.nil), h2⟩
      refine ⟨fun _ => .pub q, ?_, .inl rfl, .inr rfl⟩
      funext i
      rw [hD.ofPub]
    | some x =>
      refine R.bind (hD.solveLinearTerm q x.rel h2) fun z v hz => ?_
      exact linearTerms T ts ⟨al, z, rfl, h1, hz⟩

theorem simplify (T : TMap Sh) {e : Expression (ZMod p)} (hm : ∀ t ∈ e.mulTerms, t.1 ≠ 0 → S.mul t.1)
    (hb : ∀ t ∈ e.mulTerms, t.1 ≠ 0 → (¬ known T t.2.1 ∨ ¬ known T t.2.2) → bad) :
    R.Rel (AccR Sh bad) (fun i => simplifyExpression D (T.left i) e) (simplifyExpression (plain p) T.right e) := by
  unfold simplifyExpression
  refine R.bind (hD.mulTerms T e.mulTerms hm hb (b := ⟨[], 0⟩) ?_) fun a b h => ?_
  · exact ⟨fun _ => [], fun _ => .pub 0, by rw [hD.zero], Cols.nil, .inl rfl⟩
  refine R.bind (hD.linearTerms T e.linear h) fun a b h => ?_
  obtain ⟨al, aq, rfl, h1, h2⟩ := h
  refine R.bind (hD.addAssignWithPublic e.qc h2) fun q v hq => ?_
  exact R.pure ⟨al, q, rfl, h1, hq⟩

theorem assertZero (s : TSt Sh LR) {e : Expression (ZMod p)} (hm : ∀ t ∈ e.mulTerms, t.1 ≠ 0 → S.mul t.1)
    (hb : ∀ t ∈ e.mulTerms, t.1 ≠ 0 → (¬ known s.witness t.2.1 ∨ ¬ known s.witness t.2.2) → bad) :
    R.Rel (StR Sh LR) (fun i => solveAssertZero D (s.left i) e) (solveAssertZero (plain p) s.right e) := by
  unfold solveAssertZero
  refine R.bind (hD.simplify s.witness hm hb) fun a b h => ?_
  obtain ⟨al, aq, rfl, ⟨l, rfl, hl⟩, h2⟩ := h
  rcases b with ⟨bl, bq⟩
  dsimp only at hl h2
  rcases hl with _ | ⟨⟨y, rfl, hy, hyb⟩, _ | ⟨h3, h4⟩⟩
  · exact R.pure ⟨s, rfl, rfl⟩
  · rename_i t
    refine R.bind (hD.solveEquation hyb hy h2) fun x v hx => ?_
    exact R.pure (stR_insert s t.2 hx)
  · exact hD.fail _ _ _

theorem witnessToValue (T : TMap Sh) (w : Nat) :
    R.Rel (IsVal Sh) (fun i => Acvm.witnessToValue D (T.left i) w) (Acvm.witnessToValue (plain p) T.right w) := by
  unfold Acvm.witnessToValue
  simp only [TMap.left, TMap.right]
  cases hw : T w with
  | none => exact hD.fail _ _ _
  | some x => exact R.pure x.rel

theorem inputToValue (T : TMap Sh) (x : Input (ZMod p)) :
    R.Rel (IsVal Sh) (fun i => Acvm.inputToValue D (T.left i) x) (Acvm.inputToValue (plain p) T.right x) := by
  cases x with
  | witness w => exact hD.witnessToValue T w
  | constant c =>
    refine R.pure (a := fun _ => D.ofPub c) (b := c) (.inl ?_)
    rw [hD.ofPub]

theorem getBlock (s : TSt Sh LR) (b : Nat) :
    R.Rel LR (fun i => Acvm.getBlock D (s.left i) b) (Acvm.getBlock (plain p) s.right b) := by
  unfold Acvm.getBlock
  simp only [TSt.left, TSt.right]
  cases hw : s.memory b with
  | none => exact hD.fail _ _ _
  | some x => exact R.pure x.rel

omit [Monad m] hD in
theorem _root_.Verif.Acvm.lookupAll_rel (T : TMap Sh) : ∀ ws : List Nat,
    ((∀ i, lookupAll (T.left i) ws = none) ∧ lookupAll T.right ws = none) ∨
      ∃ x vs, (∀ i, lookupAll (T.left i) ws = some (x i)) ∧ lookupAll T.right ws = some vs ∧ Cols (IsVal Sh) x vs ∧
        vs.length = ws.length
  | [] => .inr ⟨fun _ => [], [], fun _ => rfl, rfl, Cols.nil, rfl⟩
  | w :: ws => by
    unfold lookupAll
    cases hw : T w with
    | none =>
      left
      simp [TMap.left, TMap.right, hw]
    | some r =>
      rcases lookupAll_rel T ws with ⟨h1, h2⟩ | ⟨x, vs, h1, h2, h3, h4⟩
      · left
        constructor
        · intro i
          rw [h1 i]
          split <;> simp_all
        · rw [h2]
          split <;> simp_all
      · right
        refine ⟨fun i => r.left i :: x i, r.right :: vs, fun i => ?_, ?_, Cols.cons r.rel h3, by simp [h4]⟩
        · rw [h1 i]
          simp [TMap.left, hw]
        · rw [h2]
          simp [TMap.right, hw]

theorem memoryInit (s : TSt Sh LR) (b : Nat) (init : List Nat) (hl : S.lut init.length) :
    R.Rel (StR Sh LR) (fun i => solveMemoryInit D (s.left i) b init) (solveMemoryInit (plain p) s.right b init) := by
  unfold solveMemoryInit
  have e1 : ∀ i, (TSt.left i s).memory b = (s.memory b).map (RelW.left i) := fun _ => rfl
  have e2 : s.right.memory b = (s.memory b).map RelW.right := rfl
  simp only [e1, e2]
  cases hw : s.memory b with
  | some x => exact hD.fail _ _ _
  | none =>
    simp only [Option.map_none]
    have e3 : ∀ i, (TSt.left i s).witness = TMap.left i s.witness := fun _ => rfl
    have e4 : s.right.witness = TMap.right s.witness := rfl
    simp only [e3, e4]
    rcases lookupAll_rel s.witness init with ⟨h1, h2⟩ | ⟨x, vs, h1, h2, h3, h4⟩
    · rw [h2]
      exact hD.fail _ _ _
    · simp only [h1, h2]
      refine R.bind (hD.initLut (by rw [h4]; exact hl) h3) fun lut l hlut => ?_
      exact R.pure (stR_setBlock s b hlut)

theorem memoryRead (s : TSt Sh LR) (b i v : Nat) :
    R.Rel (StR Sh LR) (fun j => solveMemoryRead D (s.left j) b i v) (solveMemoryRead (plain p) s.right b i v) := by
  unfold solveMemoryRead
  refine R.bind (hD.witnessToValue s.witness i) fun x x' hx => ?_
  refine R.bind (hD.getBlock s b) fun l l' hl => ?_
  refine R.bind (hD.readLut hx hl) fun y y' hy => ?_
  exact R.pure (stR_insert s v hy)

theorem memoryWrite (s : TSt Sh LR) (b i v : Nat) :
    R.Rel (StR Sh LR) (fun j => solveMemoryWrite D (s.left j) b i v) (solveMemoryWrite (plain p) s.right b i v) := by
  unfold solveMemoryWrite
  refine R.bind (hD.witnessToValue s.witness i) fun x x' hx => ?_
  refine R.bind (hD.witnessToValue s.witness v) fun y y' hy => ?_
  refine R.bind (hD.getBlock s b) fun l l' hl => ?_
  refine R.bind (hD.writeLut hx hy hl) fun l l' hl => ?_
  exact R.pure (stR_setBlock s b hl)

theorem checkBitSize (msg : String) (bits : Nat) {x : ι → VmVal (ZMod p) A} {v : ZMod p} (h : IsVal Sh x v) :
    R.Rel (fun _ _ => True) (fun i => Acvm.checkBitSize D msg bits (x i)) (Acvm.checkBitSize (plain p) msg bits v) := by
  unfold Acvm.checkBitSize
  rw [hD.getPublic]
  show R.Rel _ _ (if bits < Nat.size v.val then Except.error (Err.err msg) else Except.ok ())
  by_cases hb : bits < Nat.size v.val
  · rw [if_pos hb]
    exact hD.fail _ _ _
  · rw [if_neg hb]
    rcases h with rfl | ⟨s, rfl, -⟩
    · simp only [valPublic, if_neg hb]
      exact R.pure trivial
    · exact R.pure trivial

theorem range (s : TSt Sh LR) (x : Input (ZMod p)) (bits : Nat) :
    R.Rel (StR Sh LR) (fun i => solveRange D (s.left i) x bits) (solveRange (plain p) s.right x bits) := by
  unfold solveRange
  refine R.bind (hD.inputToValue s.witness x) fun y v hy => ?_
  refine R.bind (hD.checkBitSize _ bits hy) fun _ _ _ => ?_
  exact R.pure ⟨s, rfl, rfl⟩

theorem checkOld {o : Option (RelW (IsVal Sh))} {x : ι → VmVal (ZMod p) A} {v : ZMod p} (h : IsVal Sh x v) :
    R.Rel (fun _ _ => True) (fun i => Acvm.checkOld D (o.map (RelW.left i)) (x i))
      (Acvm.checkOld (plain p) (o.map RelW.right) v) := by
  cases o with
  | none => exact R.pure trivial
  | some r =>
    simp only [Option.map_some]
    show R.Rel _ _ (if r.right ≠ v then Except.error (Err.err _) else Except.ok ())
    by_cases hb : r.right = v
    · rw [if_neg (not_not.mpr hb)]
      have key : (fun i => Acvm.checkOld D (some (r.left i)) (x i)) = fun _ => Pure.pure () := by
        funext i
        unfold Acvm.checkOld
        simp only [hD.getPublic, RelW.left]
        rcases r.rel with hr | ⟨s, hr, -⟩
        · rcases h with rfl | ⟨s, rfl, -⟩
          · simp only [hr, valPublic, hb, ne_eq, not_true, if_false]
          · simp only [hr, valPublic]
        · simp only [hr, valPublic]
      rw [key]
      exact R.pure trivial
    · rw [if_pos hb]
      exact hD.fail _ _ _

theorem logic (pedantic : Bool) {op : VmVal (ZMod p) A → VmVal (ZMod p) A → Nat → m (VmVal (ZMod p) A)}
    {op' : ZMod p → ZMod p → Nat → Except Err (ZMod p)} {bits : Nat}
    (hop : ∀ {x v y u}, IsVal Sh x v → IsVal Sh y u → R.Rel (IsVal Sh) (fun i => op (x i) (y i) bits) (op' v u bits))
    (s : TSt Sh LR) (x y : Input (ZMod p)) (o : Nat) :
    R.Rel (StR Sh LR) (fun i => solveLogic D pedantic op (s.left i) x y bits o)
      (solveLogic (plain p) pedantic op' s.right x y bits o) := by
  unfold solveLogic
  refine R.bind (hD.inputToValue s.witness x) fun l l' hl => ?_
  refine R.bind (hD.inputToValue s.witness y) fun r r' hr => ?_
  refine R.bind (Q := fun _ _ => True) ?_ fun _ _ _ => ?_
  · unfold checkOperands
    cases pedantic
    · exact R.pure trivial
    · simp only [if_true]
      exact R.bind (hD.checkBitSize _ bits hl) fun _ _ _ => hD.checkBitSize _ bits hr
  refine R.bind (hop hl hr) fun z z' hz => ?_
  unfold insertValue
  refine R.bind (Q := fun _ _ => True) ?_ fun _ _ _ => ?_
  · exact hD.checkOld (o := s.witness o) hz
  exact R.pure (stR_insert s o hz)

theorem step (pedantic : Bool) (s : TSt Sh LR) (op : Opcode (ZMod p)) (hop : S.Ok op)
    (hb : (∃ e, op = .assertZero e ∧ ∃ t ∈ e.mulTerms, t.1 ≠ 0 ∧ (¬ known s.witness t.2.1 ∨ ¬ known s.witness t.2.2)) → bad) :
    R.Rel (StR Sh LR) (fun i => Acvm.step D pedantic (s.left i) op) (Acvm.step (plain p) pedantic s.right op) := by
  cases op with
  | assertZero e => exact hD.assertZero s hop fun t ht h0 hk => hb ⟨e, rfl, t, ht, h0, hk⟩
  | memoryInit b init => exact hD.memoryInit s b init hop
  | memoryRead b i v => exact hD.memoryRead s b i v
  | memoryWrite b i v => exact hD.memoryWrite s b i v
  | range x bits => exact hD.range s x bits
  | and x y bits o => exact hD.logic pedantic (hD.bitwiseAnd hop) s x y o
  | xor x y bits o => exact hD.logic pedantic (hD.bitwiseXor hop) s x y o
  | call => exact hD.fail _ _ _

theorem steps (pedantic : Bool) : ∀ (ops : List (Opcode (ZMod p))) (s : TSt Sh LR), (∀ op ∈ ops, S.Ok op) →
    (Inverts (known s.witness) ops → bad) →
    R.Rel (StR Sh LR) (fun i => Acvm.steps D pedantic (s.left i) ops) (Acvm.steps (plain p) pedantic s.right ops)
  | [], s, _, _ => R.pure ⟨s, rfl, rfl⟩
  | op :: ops, s, hS, hb => by
    unfold Acvm.steps
    refine R.bind (hD.result (hD.step pedantic s op (hS op List.mem_cons_self) fun h => hb (.inl h))) fun a b h => ?_
    obtain ⟨⟨t, rfl, rfl⟩, ht⟩ := h
    refine steps pedantic ops t (fun op h => hS op (List.mem_cons_of_mem _ h)) fun h => hb (.inr ?_)
    have hk := (step_ok ht).known
    rw [show t.right.witness = TMap.right t.witness from rfl, show s.right.witness = TMap.right s.witness from rfl,
      known_right, known_right] at hk
    rw [← hk]
    exact h

/-! ### The output -/

open Classical in
/-- The values of the shared witnesses among `ws`. -/
noncomputable def _root_.Verif.Acvm.sharedVals (T : TMap Sh) (ws : List Nat) : List (ZMod p) :=
  ws.filterMap fun w => (T w).bind fun r => if r.all = (fun _ => .pub r.right) then none else some r.right

theorem collect (T : TMap Sh) : ∀ ws : List Nat,
    R.Rel (fun a b => Cols Sh a (sharedVals T ws) ∧ b = []) (fun i => collectShared D (T.left i) ws)
      (collectShared (plain p) T.right ws)
  | [] => R.pure ⟨Cols.nil, rfl⟩
  | w :: ws => by
    unfold collectShared
    simp only [TMap.left, TMap.right]
    cases hw : T w with
    | none => exact hD.fail _ _ _
    | some r =>
      simp only [Option.map_some]
      refine R.bind (collect T ws) fun a b h => ?_
      obtain ⟨h, rfl⟩ := h
      refine R.pure ⟨?_, rfl⟩
      rw [hD.getShared]
      by_cases hr : r.all = (fun _ => .pub r.right)
      · have e : (fun i => (valShared (RelW.left i r)).toList ++ a i) = a := by
          funext i
          simp only [RelW.left, hr, valShared, Option.toList, List.nil_append]
        rw [e]
        simpa [sharedVals, hw, hr] using h
      · obtain ⟨s, hs, hsh⟩ := r.rel.resolve_left hr
        have e : (fun i => (valShared (RelW.left i r)).toList ++ a i) = fun i => s i :: a i := by
          funext i
          simp only [RelW.left, hs, valShared, Option.toList, List.cons_append, List.nil_append]
        rw [e]
        have e2 : sharedVals T (w :: ws) = r.right :: sharedVals T ws := by
          simp [sharedVals, hw, hr]
        rw [e2]
        exact Cols.cons hsh h

/-- Related outputs. -/
def _root_.Verif.Acvm.OutR (Sh : (ι → A) → ZMod p → Prop) (LR : (ι → L) → List (ZMod p) → Prop)
    (opened : List Nat) (a : ι → St (VmVal (ZMod p) A) L × List (VmVal (ZMod p) A)) (b : PSt p × List (ZMod p)) : Prop :=
  StR Sh LR (fun i => (a i).1) b.1 ∧ (∀ i, (a i).2 = b.2.map .pub) ∧
    ∀ w ∈ opened, ∃ v, ∀ i, (a i).1.witness w = some (.pub v)

theorem publish : ∀ (ws : List Nat) (s : TSt Sh LR) (acc : List (ZMod p)) (done : List Nat) (o : List (ZMod p)), ws.Nodup →
    (∀ w ∈ done, ∃ v, ∀ i, (TSt.left i s).witness w = some (.pub v)) →
    R.Rel (OutR Sh LR (done ++ ws))
      (fun i => Acvm.publish D ws (sharedVals s.witness ws.reverse) (s.left i) (acc.map .pub))
      (Acvm.publish (plain p) ws o s.right acc)
  | [], s, acc, done, o, _, hd => by
    refine R.pure (a := fun i => (TSt.left i s, acc.map VmVal.pub)) (b := (TSt.right s, acc)) ⟨⟨s, rfl, rfl⟩, fun i => rfl, ?_⟩
    simpa using hd
  | w :: ws, s, acc, done, o, hn, hd => by
    unfold Acvm.publish
    have e1 : ∀ i, (TSt.left i s).witness w = (s.witness w).map (RelW.left i) := fun _ => rfl
    have e2 : s.right.witness w = (s.witness w).map RelW.right := rfl
    simp only [e1, e2]
    cases hw : s.witness w with
    | none => exact hD.fail _ _ _
    | some r =>
      simp only [Option.map_some, hD.isShared]
      rw [show (plain p).isShared r.right = false from rfl]
      simp only [Bool.false_eq_true, if_false]
      have hnd := List.nodup_cons.mp hn
      by_cases hr : r.all = (fun _ => .pub r.right)
      · have e3 : sharedVals s.witness (w :: ws).reverse = sharedVals s.witness ws.reverse := by
          simp [sharedVals, hw, hr]
        rw [e3]
        have ih := publish ws s (acc ++ [r.right]) (done ++ [w]) o hnd.2 (by
          intro u hu
          rcases List.mem_append.mp hu with hu | hu
          · exact hd u hu
          · rw [List.mem_singleton.mp hu]
            refine ⟨r.right, fun i => ?_⟩
            simp only [e1, hw, Option.map_some, RelW.left, hr])
        rw [List.append_assoc, List.singleton_append] at ih
        simp only [RelW.left, hr, VmVal.isArith, Bool.false_eq_true, if_false]
        rw [List.map_append] at ih
        exact ih
      · obtain ⟨sh, hs, hsh⟩ := r.rel.resolve_left hr
        have e3 : sharedVals s.witness (w :: ws).reverse = sharedVals s.witness ws.reverse ++ [r.right] := by
          simp [sharedVals, hw, hr]
        rw [e3]
        simp only [RelW.left, hs, VmVal.isArith, if_true, List.getLast?_append, List.getLast?_singleton, Option.some_or,
          List.dropLast_concat, hD.ofPub]
        have hpub : IsVal Sh (fun _ : ι => .pub r.right) r.right := .inl rfl
        have e4 : sharedVals s.witness ws.reverse =
            sharedVals (s.insert w ⟨fun _ => .pub r.right, r.right, hpub⟩).witness ws.reverse := by
          unfold sharedVals
          refine List.filterMap_congr fun u hu => ?_
          have : u ≠ w := fun h => hnd.1 (h ▸ List.mem_reverse.mp hu)
          simp [St.insert, this]
        rw [e4]
        have ih := publish ws (s.insert w ⟨fun _ => .pub r.right, r.right, hpub⟩) (acc ++ [r.right]) (done ++ [w]) o hnd.2 (by
          intro u hu
          by_cases huw : u = w
          · subst huw
            exact ⟨r.right, fun i => by simp [TSt.left, TMap.left, St.insert, RelW.left]⟩
          · obtain ⟨v, hv⟩ := hd u ((List.mem_append.mp hu).resolve_right (by simpa using huw))
            refine ⟨v, fun i => ?_⟩
            have := hv i
            simp only [TSt.left, TMap.left, St.insert, Function.update_of_ne huw] at this ⊢
            exact this)
        rw [List.append_assoc, List.singleton_append, List.map_append] at ih
        have e5 : TSt.right (s.insert w ⟨fun _ => .pub r.right, r.right, hpub⟩) = s.right := by
          rw [← right_insert]
          have : s.right.witness w = some r.right := by rw [e2, hw]; rfl
          unfold St.insert
          rw [← this, Function.update_eq_self]
        rw [e5] at ih
        have e6 : ∀ i, TSt.left i (s.insert w ⟨fun _ => .pub r.right, r.right, hpub⟩) =
            (TSt.left i s).insert w (.pub r.right) := fun i => (left_insert s w ⟨_, _, hpub⟩ i).symm
        simp only [e6] at ih
        exact ih

theorem openResults (s : TSt Sh LR) {returns : List Nat} (hn : returns.Nodup) :
    R.Rel (OutR Sh LR returns.reverse) (fun i => Acvm.openResults D (s.left i) returns)
      (Acvm.openResults (plain p) s.right returns) := by
  unfold Acvm.openResults
  refine R.bind (hD.collect s.witness returns) fun a b h => ?_
  obtain ⟨h, rfl⟩ := h
  refine R.bind (hD.openMany h) fun x o hx => ?_
  subst hx
  have := hD.publish returns.reverse s [] [] o (List.nodup_reverse.mpr hn) (by simp)
  rwa [List.reverse_reverse] at this

omit hD [Monad m] in
theorem _root_.Verif.Acvm.Represents.images {W : ι → Nat → Option (VmVal (ZMod p) A)} {Wp : Nat → Option (ZMod p)}
    (h : Represents Sh W Wp) : ∃ T : TMap Sh, (W = fun i => T.left i) ∧ Wp = T.right := by
  have h' : ∀ w, ∃ t : Option (RelW (IsVal Sh)), Wp w = t.map RelW.right ∧ ∀ i, W i w = t.map (RelW.left i) := by
    intro w
    rcases h w with ⟨h1, h2⟩ | ⟨v, x, h1, h2, h3⟩
    · exact ⟨none, h1, h2⟩
    · exact ⟨some ⟨x, v, h3⟩, h1, h2⟩
  choose T h1 h2 using h'
  exact ⟨T, funext fun i => funext fun w => h2 w i, funext h1⟩

omit hD [Monad m] in
theorem _root_.Verif.Acvm.represents_images (T : TMap Sh) : Represents Sh (fun i => T.left i) T.right := by
  intro w
  cases hw : T w with
  | none => exact .inl ⟨by simp [TMap.right, hw], fun i => by simp [TMap.left, hw]⟩
  | some r => exact .inr ⟨r.right, r.all, by simp [TMap.right, hw], fun i => by simp [TMap.left, hw, RelW.left], r.rel⟩

theorem solve (pedantic : Bool) {W : ι → Nat → Option (VmVal (ZMod p) A)} {Wp : Nat → Option (ZMod p)}
    (hW : Represents Sh W Wp) {ops : List (Opcode (ZMod p))} (hS : ∀ op ∈ ops, S.Ok op) (hb : Inverts (known Wp) ops → bad)
    {returns : List Nat} (hn : returns.Nodup) :
    R.Rel (SolvedR Sh returns) (fun i => Acvm.solve D pedantic (W i) ops returns)
      (Acvm.solve (plain p) pedantic Wp ops returns) := by
  obtain ⟨T, rfl, rfl⟩ := hW.images
  rw [known_right] at hb
  unfold Acvm.solve
  refine R.bind (hD.steps pedantic ops (⟨T, fun _ => none⟩ : TSt Sh LR) hS hb) fun a b h => ?_
  obtain ⟨s, rfl, rfl⟩ := h
  refine R.bind (hD.openResults s hn) fun a b h => ?_
  obtain ⟨⟨s', h1, h2⟩, h3, h4⟩ := h
  refine R.pure ⟨?_, h3, fun w hw => h4 w (List.mem_reverse.mpr hw)⟩
  show Represents Sh (fun i => (a i).1.witness) b.1.witness
  have e : (fun i => (a i).1.witness) = fun i => TMap.left i s'.witness := by
    funext i
    rw [congrFun h1 i]
    rfl
  rw [e, h2]
  exact represents_images s'.witness

end DriverSim

end Verif.Acvm
