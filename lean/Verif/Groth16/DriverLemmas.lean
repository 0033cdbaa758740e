import Verif.Groth16.FftLemmas
import Verif.Spec.Groth16

/-!
# Lemmas: the prover over any driver
-/

namespace Verif.Groth16

open MPC (bail panicWith)
open Polynomial

theorem spec_orPanic {ι S M α : Type} [DecidableEq ι] [Fintype ι] {x : ι → Option α} {s : ι → α} {st : ι → S}
    {Q : (ι → α) → (ι → S) → Prop} (h : ∀ i, x i = some (s i)) (hQ : Q s st) :
    Spec (M := M) (fun i => orPanic (x i)) st Q := by
  simp only [h]
  exact Spec.pure hQ

theorem spec_orPanic_bind {ι S M α β : Type} [DecidableEq ι] [Fintype ι] {x : ι → Option α} {s : ι → α} {st : ι → S}
    {f : ι → α → MPC ι S M Err β} {Q : (ι → β) → (ι → S) → Prop} (h : ∀ i, x i = some (s i))
    (h' : Spec (fun i => f i (s i)) st Q) : Spec (M := M) (fun i => orPanic (x i) >>= f i) st Q :=
  Spec.bind (spec_orPanic (Q := fun r t => r = s ∧ t = st) h ⟨rfl, rfl⟩) fun _ _ e => by
    obtain ⟨rfl, rfl⟩ := e; exact h'

theorem spec_netId_bind {ι S M β : Type} [DecidableEq ι] [Fintype ι] {st : ι → S}
    {f : ι → ι → MPC ι S M Err β} {Q : (ι → β) → (ι → S) → Prop}
    (h' : Spec (fun i => f i i) st Q) : Spec (M := M) (fun i => MPC.netId >>= f i) st Q :=
  Spec.bind (Spec.netId (Q := fun r t => (r = fun i => i) ∧ t = st) ⟨rfl, rfl⟩) fun _ _ e => by
    obtain ⟨rfl, rfl⟩ := e; exact h'

/-- What the prover needs from a driver.  `P`, `H`, `H₁`, `H₂` say that the parties hold shares, half shares and half
shares of points; `Mul n` and `Rand` describe what a local multiplication of `n` shares and a call of `rand` do to the
states, `I` is an invariant of the states. -/
structure DriverSpec {ι S M F A G₁ G₂ : Type} [DecidableEq ι] [Fintype ι] [Field F] [AddCommGroup G₁] [Module F G₁]
    [AddCommGroup G₂] [Module F G₂] [Zero A] [Add A] [SMul F A] (d : Driver ι S M F A G₁ G₂)
    (I : (ι → S) → Prop) (P : (ι → A) → F → Prop) (H : (ι → F) → F → Prop) (H₁ : (ι → G₁) → G₁ → Prop)
    (H₂ : (ι → G₂) → G₂ → Prop) (Mul : Nat → (ι → S) → (ι → S) → Prop) (Rand : (ι → S) → F → (ι → S) → Prop) :
    Prop where
  zero : P (fun _ => 0) 0
  add : ∀ x y v w, P x v → P y w → P (fun i => x i + y i) (v + w)
  smul : ∀ (c : F) x v, P x v → P (fun i => c • x i) (c • v)
  hzero : H (fun _ => 0) 0
  hadd : ∀ x y v w, H x v → H y w → H (fun i => x i + y i) (v + w)
  hsub : ∀ x y v w, H x v → H y w → H (fun i => x i - y i) (v - w)
  hsmul : ∀ (c : F) x v, H x v → H (fun i => c • x i) (c • v)
  zero1 : H₁ (fun _ => 0) 0
  add1 : ∀ x y v w, H₁ x v → H₁ y w → H₁ (fun i => x i + y i) (v + w)
  sub1 : ∀ x y v w, H₁ x v → H₁ y w → H₁ (fun i => x i - y i) (v - w)
  point1 : ∀ (x : ι → F) v (Q : G₁), H x v → H₁ (fun i => x i • Q) (v • Q)
  zero2 : H₂ (fun _ => 0) 0
  add2 : ∀ x y v w, H₂ x v → H₂ y w → H₂ (fun i => x i + y i) (v + w)
  point2 : ∀ (x : ι → F) v (Q : G₂), H x v → H₂ (fun i => x i • Q) (v • Q)
  evaluate : ∀ (row : List (F × Nat)) (pub : List F) (wit : ι → List A) (ws : List F), Cols P wit ws →
    (∀ x ∈ row, x.2 < pub.length + ws.length) →
    ∃ s, (∀ i, d.evaluateConstraint i row pub (wit i) = some (s i)) ∧ P s (rowValue row (pub ++ ws))
  evaluateHalf : ∀ (row : List (F × Nat)) (pub : List F) (wit : ι → List A) (ws : List F), Cols P wit ws →
    (∀ x ∈ row, x.2 < pub.length + ws.length) →
    ∃ s, (∀ i, d.evaluateConstraintHalf i row pub (wit i) = some (s i)) ∧ H s (rowValue row (pub ++ ws))
  promote : ∀ vs : List F, Cols P (fun i => d.promote i vs) vs
  localMulVec : ∀ {a b : ι → List A} {xs ys : List F} {st : ι → S}, Cols P a xs → Cols P b ys →
    xs.length = ys.length → I st → Spec (M := M) (fun i => d.localMulVec (a i) (b i)) st (fun r st' =>
      Cols H r (List.zipWith (· * ·) xs ys) ∧ I st' ∧ Mul xs.length st st')
  distribute : ∀ {a : ι → List A} {xs : List F} (t : List F), Cols P a xs → xs.length = t.length →
    ∃ s, (∀ i, d.distribute (a i) t = some (s i)) ∧ Cols P s (List.zipWith (· * ·) xs t)
  addPublicG1 : ∀ x v q, H₁ x v → H₁ (fun i => d.addPublicG1 i (x i) q) (v + q)
  addPublicG2 : ∀ x v q, H₂ x v → H₂ (fun i => d.addPublicG2 i (x i) q) (v + q)
  toHalf : ∀ x v, P x v → H (fun i => d.toHalf (x i)) v
  openHalfG1 : ∀ {x v} {st : ι → S}, H₁ x v → I st →
    Spec (M := M) (fun i => d.openHalfG1 (x i)) st (fun r st' => (r = fun _ => v) ∧ I st')
  openHalfG2 : ∀ {x v} {st : ι → S}, H₂ x v → I st →
    Spec (M := M) (fun i => d.openHalfG2 (x i)) st (fun r st' => (r = fun _ => v) ∧ I st')
  scalarMul : ∀ {x v b k} {st : ι → S}, H₁ x v → P b k → I st →
    Spec (M := M) (fun i => d.scalarMul (x i) (b i)) st (fun r st' => H₁ r (k • v) ∧ I st')
  rand : ∀ {st : ι → S}, I st →
    Spec (M := M) (fun _ => d.rand) st (fun r st' => ∃ v, P r v ∧ I st' ∧ Rand st v st')

section Values

variable {F : Type} [Field F]

theorem rowValue_nil (z : List F) : rowValue ([] : List (F × Nat)) z = 0 := rfl

theorem clog_pow (m : Matrices F) : m.numConstraints + m.numInstance ≤ 2 ^ m.power :=
  Nat.le_pow_clog (by norm_num) _

theorem resize_values (rows : List (List (F × Nat))) (z : List F) {n : Nat} (h : rows.length ≤ n) :
    resize n (rows.map fun row => rowValue row z) =
      (List.range n).map fun j => if j < rows.length then rowValue (rows.getD j []) z else 0 := by
  refine List.ext_getElem? fun j => ?_
  rw [resize, List.getElem?_take, List.getElem?_map]
  by_cases hj : j < n
  · rw [if_pos hj, List.getElem?_range hj]
    by_cases h2 : j < rows.length
    · rw [List.getElem?_append_left (by simpa using h2)]
      simp [h2, List.getD_eq_getElem?_getD]
    · rw [List.getElem?_append_right (by simpa using h2), List.getElem?_replicate]
      simp only [List.length_map, Option.map_some, if_neg h2]
      rw [if_pos (by omega)]
  · rw [if_neg hj, List.getElem?_eq_none (by simpa using hj)]; rfl

/-- The values on the domain. -/
theorem writeSlice_values (m : Matrices F) (hm : m.a.length = m.numConstraints) (pub ws : List F)
    (hp : pub.length = m.numInstance) :
    writeSlice (resize (2 ^ m.power) (m.a.map fun row => rowValue row (pub ++ ws))) m.numConstraints m.numInstance
      pub = some ((List.range (2 ^ m.power)).map (m.valueA (pub ++ ws))) := by
  have hle := clog_pow m
  rw [resize_values _ _ (by omega), writeSlice, if_pos (by simp [hp]; omega)]
  congr 1
  refine List.ext_getElem? fun j => ?_
  rw [List.take_of_length_le (l := pub) (by omega), List.append_assoc]
  by_cases h1 : j < m.numConstraints
  · rw [List.getElem?_append_left (by simp; omega), List.getElem?_take, if_pos h1]
    simp [List.getElem?_range (show j < 2 ^ m.power by omega), Matrices.valueA, h1, hm]
  · have hl : (List.take m.numConstraints (List.map (fun j => if j < m.a.length then
        rowValue (m.a.getD j []) (pub ++ ws) else 0) (List.range (2 ^ m.power)))).length = m.numConstraints := by
      simp; omega
    rw [List.getElem?_append_right (by omega), hl]
    by_cases h2 : j < m.numConstraints + m.numInstance
    · rw [List.getElem?_append_left (by omega)]
      simp only [List.getElem?_map, List.getElem?_range (show j < 2 ^ m.power by omega), Option.map_some,
        Matrices.valueA, if_neg h1, if_pos h2, List.getD_eq_getElem?_getD]
      rw [List.getElem?_append_left (by omega), List.getElem?_eq_getElem (by omega)]
      rfl
    · rw [List.getElem?_append_right (by omega), List.getElem?_drop, List.getElem?_map, List.getElem?_map,
        show m.numConstraints + m.numInstance + (j - m.numConstraints - pub.length) = j by omega]
      by_cases h3 : j < 2 ^ m.power
      · simp [List.getElem?_range h3, Matrices.valueA, h1, h2, hm]
      · rw [List.getElem?_eq_none (by simpa using h3)]; rfl

theorem interp_degree {n : Nat} {w : F} (hw : IsPrimitiveRoot w n) (v : Nat → F) : (interp n w v).degree < n := by
  have := Lagrange.degree_interpolate_lt (s := Finset.range n) (v := fun j => w ^ j) v (by
    intro i hi j hj h
    exact hw.pow_inj (by simpa using hi) (by simpa using hj) h)
  simpa [interp] using this

theorem interp_eval {n : Nat} {w : F} (hw : IsPrimitiveRoot w n) (v : Nat → F) {j : Nat} (hj : j < n) :
    (interp n w v).eval (w ^ j) = v j := by
  refine Lagrange.eval_interpolate_at_node (s := Finset.range n) (v := fun j => w ^ j) v (by
    intro i hi j hj h
    exact hw.pow_inj (by simpa using hi) (by simpa using hj) h) (by simpa using hj)

theorem map_interp {n : Nat} {w : F} (hw : IsPrimitiveRoot w n) (v : Nat → F) :
    (List.range n).map v = (List.range n).map fun j => (interp n w v).eval (w ^ j) :=
  List.map_congr_left fun _ hj => (interp_eval hw v (List.mem_range.1 hj)).symm

/-- Coset evaluation of vectors of values. -/
theorem cosetValues_interp {k : Nat} {w : F} (hw : IsPrimitiveRoot w (2 ^ k)) (hn : ((2 ^ k : Nat) : F) ≠ 0)
    (shift : F) (v : Nat → F) :
    cosetValues w (cosetTable shift (2 ^ k)) ((List.range (2 ^ k)).map v) =
      (List.range (2 ^ k)).map fun j => (interp (2 ^ k) w v).eval (shift * w ^ j) := by
  rw [map_interp hw v, cosetValues_eval (interp_degree hw v) hw hn]

theorem cosetTable_length (shift : F) (n : Nat) : (cosetTable shift n).length = n := by
  simp [cosetTable, bitReverse_length]

end Values

section Generic

variable {ι S M J F A G₁ G₂ : Type} [DecidableEq ι] [Fintype ι] [Field F] [DecidableEq F] [AddCommGroup G₁]
  [Module F G₁] [AddCommGroup G₂] [Module F G₂] [Zero A] [Add A] [SMul F A] {d : Driver ι S M F A G₁ G₂}
  {I : (ι → S) → Prop} {P : (ι → A) → F → Prop} {H : (ι → F) → F → Prop} {H₁ : (ι → G₁) → G₁ → Prop}
  {H₂ : (ι → G₂) → G₂ → Prop} {Mul : Nat → (ι → S) → (ι → S) → Prop} {Rand : (ι → S) → F → (ι → S) → Prop}

theorem mapM_cols {ι α β β' : Type} {Q : (ι → β) → β' → Prop} {f : ι → α → Option β} {g : α → β'} (l : List α)
    (h : ∀ a ∈ l, ∃ s, (∀ i, f i a = some (s i)) ∧ Q s (g a)) :
    ∃ s, (∀ i, l.mapM (f i) = some (s i)) ∧ Cols Q s (l.map g) := by
  induction l with
  | nil => exact ⟨fun _ => [], fun i => by simp, Cols.nil⟩
  | cons a l ih =>
    obtain ⟨x, hx, hq⟩ := h a (by simp)
    obtain ⟨s, hs, hc⟩ := ih fun b hb => h b (by simp [hb])
    exact ⟨fun i => x i :: s i, fun i => by simp [List.mapM_cons, hx, hs], Cols.cons hq hc⟩

theorem resize_cols {ι α β : Type} [Zero α] [Zero β] {Q : (ι → α) → β → Prop} {s : ι → List α} {vs : List β}
    (h : Cols Q s vs) (h0 : Q (fun _ => 0) 0) (n : Nat) :
    Cols Q (fun i => resize n (s i)) (resize n vs) := by
  have e : (fun i => resize n (s i)) = fun i => (s i ++ List.replicate (n - vs.length) 0).take n := by
    funext i; rw [resize, h.length i]
  rw [e]
  exact (h.append (Cols.replicate _ h0)).take n

theorem cols_const {ι α : Type} (ws : List α) : Cols (fun (x : ι → α) v => x = fun _ => v) (fun _ => ws) ws := by
  refine ⟨ws.map fun w _ => w, ?_, ?_⟩
  · funext i; rw [List.map_map]; exact (List.map_id _).symm
  · rw [List.forall₂_map_left_iff]; exact List.forall₂_same.mpr fun _ _ => rfl

variable (D : DriverSpec d I P H H₁ H₂ Mul Rand)

include D

omit [DecidableEq F] in
theorem evaluateRows_cols {rows : List (List (F × Nat))} {pub ws : List F} {wit : ι → List A} (hw : Cols P wit ws)
    (hi : ∀ row ∈ rows, ∀ x ∈ row, x.2 < pub.length + ws.length) (n : Nat) :
    ∃ s, (∀ i, evaluateRows d i n rows pub (wit i) = some (s i)) ∧
      Cols P s (resize n (rows.map fun row => rowValue row (pub ++ ws))) := by
  obtain ⟨s, hs, hc⟩ := mapM_cols (f := fun i row => d.evaluateConstraint i row pub (wit i)) rows
    fun row hr => D.evaluate row pub wit ws hw (hi row hr)
  exact ⟨_, fun i => by simp only [evaluateRows, hs]; rfl, resize_cols hc D.zero n⟩

omit [DecidableEq F] in
theorem evaluateRowsHalf_cols {rows : List (List (F × Nat))} {pub ws : List F} {wit : ι → List A}
    (hw : Cols P wit ws) (hi : ∀ row ∈ rows, ∀ x ∈ row, x.2 < pub.length + ws.length) (n : Nat) :
    ∃ s, (∀ i, evaluateRowsHalf d i n rows pub (wit i) = some (s i)) ∧
      Cols H s (resize n (rows.map fun row => rowValue row (pub ++ ws))) := by
  obtain ⟨s, hs, hc⟩ := mapM_cols (f := fun i row => d.evaluateConstraintHalf i row pub (wit i)) rows
    fun row hr => D.evaluateHalf row pub wit ws hw (hi row hr)
  exact ⟨_, fun i => by simp only [evaluateRowsHalf, hs]; rfl, resize_cols hc D.hzero n⟩

omit [DecidableEq F] in
theorem evaluateA_cols {m : Matrices F} (hm : m.WellFormed) {pub ws : List F} {wit : ι → List A}
    (hw : Cols P wit ws) (hp : pub.length = m.numInstance) (hl : ws.length = m.numWitness) :
    ∃ s, (∀ i, evaluateA d i (2 ^ m.power) m pub (wit i) = some (s i)) ∧
      Cols P s ((List.range (2 ^ m.power)).map (m.valueA (pub ++ ws))) := by
  obtain ⟨s, hs, hc⟩ := evaluateRows_cols D (rows := m.a) (pub := pub) hw (fun row hr x hx => by
    rw [hp, hl]; exact hm.indexA row hr x hx) (2 ^ m.power)
  have hv := writeSlice_values m hm.a pub ws hp
  have hpr := D.promote pub
  have hlen := hc.length
  have hlen' := hpr.length
  simp only [writeSlice, Option.ite_none_right_eq_some] at hv
  obtain ⟨hv1, hv2⟩ := hv
  refine ⟨fun i => (s i).take m.numConstraints ++ (d.promote i pub).take m.numInstance ++
    (s i).drop (m.numConstraints + m.numInstance), fun i => ?_, ?_⟩
  · simp only [evaluateA, hs]
    rw [Option.bind_eq_bind, Option.bind_some, writeSlice, if_pos (by rw [hlen, hlen']; exact hv1)]
  · rw [← Option.some.inj hv2]
    exact ((hc.take _).append (hpr.take _)).append (hc.drop _)

omit [DecidableEq F] in
theorem toCoset_cols {a : ι → List A} {xs : List F} (h : Cols P a xs) {gen : F} {table : List F}
    (ht : xs.length = table.length) :
    ∃ s, (∀ i, toCoset d gen table (a i) = some (s i)) ∧ Cols P s (cosetValues gen table xs) := by
  obtain ⟨s, hs, hc⟩ := D.distribute table (bitReverse_cols (ifft_cols h D.zero D.add D.smul gen) D.zero)
    (by simpa [bitReverse_length, ifft] using ht)
  refine ⟨_, fun i => ?_, fft_cols (bitReverse_cols hc D.zero) D.zero D.add D.smul gen⟩
  simp only [toCoset, ifftInToOut, hs]
  rfl

omit [DecidableEq F] in
theorem toCosetHalf_cols {a : ι → List F} {xs : List F} (h : Cols H a xs) {gen : F} {table : List F}
    (ht : xs.length = table.length) :
    ∃ s, (∀ i, toCosetHalf gen table (a i) = some (s i)) ∧ Cols H s (cosetValues gen table xs) := by
  have h1 := bitReverse_cols (ifft_cols h D.hzero D.hadd D.hsmul gen) D.hzero
  have hl : ∀ i, (bitReverse (ifft gen (a i))).length = table.length := fun i => by
    rw [h1.length]; simpa [bitReverse_length, ifft] using ht
  have hc : Cols H (fun i => List.zipWith (· * ·) (bitReverse (ifft gen (a i))) table)
      (List.zipWith (· * ·) (bitReverse (ifft gen xs)) table) :=
    Cols.zipWith (W := H) (f := fun _ x y => x * y) (g := fun x y => x * y) h1
      (cols_const table) fun x v y u hx hu => by
        subst hu; simpa [mul_comm] using D.hsmul u x v hx
  refine ⟨_, fun i => ?_, fft_cols (bitReverse_cols hc D.hzero) D.hzero D.hadd D.hsmul gen⟩
  simp only [toCosetHalf, ifftInToOut, zipEq, hl, if_true]
  rfl

theorem spec_circomWitnessMap {pr : FftParams F} {m : Matrices F} (hm : m.WellFormed) {pub ws : List F}
    {wit : ι → List A} (hw : Cols P wit ws) (hp : pub.length = m.numInstance) (hl : ws.length = m.numWitness)
    {w shift : F} (hr : groth16RootsOfUnity pr m.power = some (w, shift)) (hpow : m.power ≤ pr.twoAdicity)
    (hprim : IsPrimitiveRoot w (2 ^ m.power)) (hn : ((2 ^ m.power : Nat) : F) ≠ 0) {st : ι → S} (hst : I st) :
    Spec (M := M) (fun i => circomWitnessMap pr d m pub (wit i)) st (fun r st' =>
      Cols H r (m.circomH w shift (pub ++ ws)) ∧ I st' ∧
        ∃ st₁, Mul (2 ^ m.power) st st₁ ∧ Mul (2 ^ m.power) st₁ st') := by
  have hsize : nextPowerOfTwo (m.numConstraints + m.numInstance) = 2 ^ m.power := rfl
  have hidx : pub.length + ws.length = m.numInstance + m.numWitness := by omega
  have hb := resize_values m.b (pub ++ ws) (n := 2 ^ m.power) (by have := clog_pow m; have := hm.b; omega)
  obtain ⟨a, ha, hac⟩ := evaluateA_cols D hm hw hp hl
  obtain ⟨b, hbb, hbc⟩ := evaluateRows_cols D (rows := m.b) (pub := pub) hw
    (fun row hr x hx => hidx ▸ hm.indexB row hr x hx) (2 ^ m.power)
  rw [hb, hm.b] at hbc
  obtain ⟨a', ha', hac'⟩ := toCoset_cols D hac (gen := w) (table := cosetTable shift (2 ^ m.power))
    (by simp [cosetTable_length])
  obtain ⟨b', hb', hbc'⟩ := toCoset_cols D hbc (gen := w) (table := cosetTable shift (2 ^ m.power))
    (by simp [cosetTable_length])
  rw [cosetValues_interp hprim hn] at hac' hbc'
  simp only [circomWitnessMap, hsize, Nat.log2_two_pow, if_neg (not_lt.2 hpow), hr]
  refine spec_orPanic_bind (s := fun _ => (w, shift)) (fun _ => rfl) ?_
  refine spec_netId_bind ?_
  refine spec_orPanic_bind ha ?_
  refine spec_orPanic_bind hbb ?_
  refine spec_orPanic_bind ha' ?_
  refine spec_orPanic_bind hb' ?_
  refine Spec.bind (D.localMulVec hac hbc (by simp) hst) ?_
  rintro c st₁ ⟨hcc, hst₁, hm₁⟩
  rw [List.zipWith_map, List.zipWith_self] at hcc
  obtain ⟨c', hc', hcc'⟩ := toCosetHalf_cols D hcc (gen := w) (table := cosetTable shift (2 ^ m.power))
    (by simp [cosetTable_length])
  rw [cosetValues_interp hprim hn] at hcc'
  refine spec_orPanic_bind hc' ?_
  refine Spec.bind (D.localMulVec hac' hbc' (by simp) hst₁) ?_
  rintro ab st₂ ⟨hab, hst₂, hm₂⟩
  have hlen : ∀ i, (ab i).length = (c' i).length := fun i => by rw [hab.length, hcc'.length]; simp
  have hfin := Cols.zipWith (W := H) (f := fun _ x y => x - y) (g := fun x y => x - y) hab hcc'
    fun x v y u hx hy => D.hsub x y v u hx hy
  refine spec_orPanic (s := fun i => List.zipWith (· - ·) (ab i) (c' i))
    (fun i => by simp only [zipEq, hlen, if_true]) ⟨?_, hst₂, st₁, by simpa using hm₁, by simpa using hm₂⟩
  refine cast ?_ hfin
  congr 1
  rw [List.zipWith_map, List.zipWith_self, List.zipWith_map, List.zipWith_self]
  refine List.map_congr_left fun i _ => ?_
  simp only [eval_sub, eval_mul]
  congr 3

theorem spec_libsnarkWitnessMap {pr : FftParams F} {m : Matrices F} (hm : m.WellFormed) {pub ws : List F}
    {wit : ι → List A} (hw : Cols P wit ws) (hp : pub.length = m.numInstance) (hl : ws.length = m.numWitness)
    (hpow : m.power ≤ pr.twoAdicity) (hprim : IsPrimitiveRoot (pr.domainGen m.power) (2 ^ m.power))
    (hn : ((2 ^ m.power : Nat) : F) ≠ 0) (hg : pr.generator ^ 2 ^ m.power ≠ 1) (hg0 : pr.generator ≠ 0)
    {st : ι → S} (hst : I st) :
    Spec (M := M) (fun i => libsnarkWitnessMap pr d m pub (wit i)) st (fun r st' =>
      Cols H r (m.libsnarkH (pr.domainGen m.power) pr.generator (pub ++ ws)) ∧ I st' ∧ Mul (2 ^ m.power) st st') := by
  have hsize : nextPowerOfTwo (m.numConstraints + m.numInstance) = 2 ^ m.power := rfl
  have hidx : pub.length + ws.length = m.numInstance + m.numWitness := by omega
  have hle := clog_pow m
  have hb := resize_values m.b (pub ++ ws) (n := 2 ^ m.power) (by have := hm.b; omega)
  have hc := resize_values m.c (pub ++ ws) (n := 2 ^ m.power) (by have := hm.c; omega)
  set w := pr.domainGen m.power with hwdef
  set g := pr.generator with hgdef
  obtain ⟨a, ha, hac⟩ := evaluateA_cols D hm hw hp hl
  obtain ⟨b, hbb, hbc⟩ := evaluateRows_cols D (rows := m.b) (pub := pub) hw
    (fun row hr x hx => hidx ▸ hm.indexB row hr x hx) (2 ^ m.power)
  obtain ⟨c, hcc, hcv⟩ := evaluateRowsHalf_cols D (rows := m.c) (pub := pub) hw
    (fun row hr x hx => hidx ▸ hm.indexC row hr x hx) (2 ^ m.power)
  rw [hb, hm.b] at hbc
  rw [hc, hm.c] at hcv
  obtain ⟨a', ha', hac'⟩ := toCoset_cols D hac (gen := w) (table := cosetTable g (2 ^ m.power))
    (by simp [cosetTable_length])
  obtain ⟨b', hb', hbc'⟩ := toCoset_cols D hbc (gen := w) (table := cosetTable g (2 ^ m.power))
    (by simp [cosetTable_length])
  obtain ⟨c', hc', hcv'⟩ := toCosetHalf_cols D hcv (gen := w) (table := cosetTable g (2 ^ m.power))
    (by simp [cosetTable_length])
  rw [cosetValues_interp hprim hn] at hac' hbc' hcv'
  simp only [libsnarkWitnessMap, hsize, Nat.log2_two_pow, if_neg (not_lt.2 hpow), ← hwdef, ← hgdef]
  refine spec_netId_bind ?_
  refine spec_orPanic_bind ha ?_
  refine spec_orPanic_bind ha' ?_
  refine spec_orPanic_bind hbb ?_
  refine spec_orPanic_bind hb' ?_
  refine Spec.bind (D.localMulVec hac' hbc' (by simp) hst) ?_
  rintro ab st₁ ⟨hab, hst₁, hm₁⟩
  refine spec_orPanic_bind hcc ?_
  refine spec_orPanic_bind hc' ?_
  refine spec_orPanic_bind (s := fun _ => (g ^ 2 ^ m.power - 1)⁻¹)
    (fun i => by rw [invOrPanic, if_neg (sub_ne_zero.2 hg)]) ?_
  refine spec_orPanic_bind (s := fun _ => g⁻¹) (fun i => by rw [invOrPanic, if_neg hg0]) ?_
  refine Spec.pure ⟨?_, hst₁, by simpa using hm₁⟩
  have hlen : ∀ i, (ab i).drop (c' i).length = [] := fun i => by
    rw [List.drop_eq_nil_iff, hab.length, hcv'.length]; simp
  have h1 := Cols.zipWith (W := H) (f := fun _ x y => (x - y) * (g ^ 2 ^ m.power - 1)⁻¹)
    (g := fun x y => (x - y) * (g ^ 2 ^ m.power - 1)⁻¹) hab hcv'
    fun x v y u hx hy => by
      simpa [mul_comm] using D.hsmul (g ^ 2 ^ m.power - 1)⁻¹ _ _ (D.hsub x y v u hx hy)
  rw [List.zipWith_map, List.zipWith_self, List.zipWith_map, List.zipWith_self] at h1
  have hv : (List.range (2 ^ m.power)).map (fun j => (eval (g * w ^ j) (interp (2 ^ m.power) w (m.valueA (pub ++ ws))) *
      eval (g * w ^ j) (interp (2 ^ m.power) w fun j =>
        if j < m.numConstraints then rowValue (m.b.getD j []) (pub ++ ws) else 0) -
      eval (g * w ^ j) (interp (2 ^ m.power) w fun j =>
        if j < m.numConstraints then rowValue (m.c.getD j []) (pub ++ ws) else 0)) * (g ^ 2 ^ m.power - 1)⁻¹) =
      (List.range (2 ^ m.power)).map fun j => (m.qap w (pub ++ ws)).eval (g * w ^ j) / (g ^ 2 ^ m.power - 1) := by
    refine List.map_congr_left fun j _ => ?_
    simp only [Matrices.qap, eval_sub, eval_mul, div_eq_mul_inv]
    rfl
  rw [hv] at h1
  have h2 := bitReverse_cols (bitReverse_cols (ifft_cols h1 D.hzero D.hadd D.hsmul w) D.hzero) D.hzero
  rw [map_interp hprim, ifft_eval (interp_degree hprim _) hprim hn, bitReverse_bitReverse (k := m.power) (by simp)]
    at h2
  simp only [hlen, List.append_nil, ifftInToOut]
  have hlen2 := h2.length
  have e : (fun i => (bitReverse (bitReverse (ifft w (List.zipWith (fun x y => (x - y) * (g ^ 2 ^ m.power - 1)⁻¹) (ab i)
      (c' i))))).zipIdx.map fun x : F × Nat => x.1 * g⁻¹ ^ x.2) =
      fun i => (List.range (2 ^ m.power)).map fun k =>
        (bitReverse (bitReverse (ifft w (List.zipWith (fun x y => (x - y) * (g ^ 2 ^ m.power - 1)⁻¹) (ab i)
      (c' i))))).getD k 0 * g⁻¹ ^ k := by
    funext i
    have hl := hlen2 i
    rw [List.length_map, List.length_range] at hl
    refine List.ext_getElem (by simp only [List.length_map, List.length_zipIdx, List.length_range, hl]) fun k h1 h2 => ?_
    have hk : k < 2 ^ m.power := by simpa using h2
    simp only [List.getElem_map, List.getElem_zipIdx, List.getElem_range, Nat.zero_add]
    rw [List.getD_eq_getElem?_getD, List.getElem?_eq_getElem (by rw [hl]; exact hk)]
    rfl
  refine cast (congrArg₂ (Cols H) e.symm rfl) (Cols.ofFn _ fun k hk => ?_)
  have h3 := Cols.getD h2 D.hzero k
  rw [getD_map_range _ hk] at h3
  have := D.hsmul (g⁻¹ ^ k) _ _ h3
  simpa [mul_comm, div_eq_mul_inv] using this

end Generic

end Verif.Groth16
