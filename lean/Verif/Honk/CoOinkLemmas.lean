import Verif.Honk.CoOink
import Verif.Plonk.Rep3Sim
import Mathlib.Tactic.Ring
import Mathlib.Tactic.LinearCombination

/-!
# Lemmas: the collaborative Oink prover on shares
-/

namespace Verif.Honk

open Plonk (Linear Calc prefixProducts randInv)

variable {ι F A : Type} {c : Type → Type} [Monad c] [Field F] [DecidableEq F] [Zero A] [Add A] [Sub A] [Neg A] [SMul F A]

/-- What the drivers guarantee.  `B` is that a random value is zero; a program with a supply of `k` satisfies `CS k`. -/
structure CoSim (d : ι → CoDriver c F A) (P : (ι → A) → F → Prop) (B : Prop)
    (CS : {α : Type} → Nat → (ι → c α) → ((ι → α) → Prop) → Prop) : Prop where
  linear : Linear P (fun i => (d i).addPub) (fun i => (d i).promote)
  rules : Calc CS
  rands : ∀ m, CS m (fun i => (List.range m).mapM fun (_ : Nat) => (d i).rand) fun r =>
    ∃ v : List F, v.length = m ∧ Cols P r v ∧ (0 ∈ v → B)
  mulMany : ∀ {s t : ι → List A} {v u : List F}, Cols P s v → Cols P t u → v.length = u.length →
    CS v.length (fun i => (d i).mulMany (s i) (t i)) fun r => Cols P r (List.zipWith (· * ·) v u)
  mulOpenMany : ∀ {s t : ι → List A} {v u : List F}, Cols P s v → Cols P t u → v.length = u.length →
    CS v.length (fun i => (d i).mulOpenMany (s i) (t i)) fun r => r = fun _ => List.zipWith (· * ·) v u
  invMany : ∀ {s : ι → List A} {v : List F}, Cols P s v → (0 ∈ v → B) →
    CS (2 * v.length) (fun i => (d i).invMany (s i)) fun r => 0 ∉ v ∧ Cols P r (v.map (·⁻¹))
  fail : B → ∀ {α : Type} (m : String) (Q : (ι → α) → Prop), CS 0 (fun i => (d i).fail (.err m)) Q

theorem cols_rows {P : (ι → A) → F → Prop} {f : ι → Nat → A} {g : Nat → F} (l : List Nat) (h : ∀ k ∈ l, P (fun i => f i k) (g k)) :
    Cols P (fun i => l.map (f i)) (l.map g) := by
  induction l with
  | nil => exact Cols.nil
  | cons k l ih =>
    exact Cols.cons (h k (by simp)) (ih fun j hj => h j (by simp [hj]))

/-- Shares of a column. -/
def ColShares (P : (ι → A) → F → Prop) (z : ι → Nat → A) (v : Nat → F) : Prop := ∀ k, P (fun i => z i k) (v k)

theorem ColShares.update {P : (ι → A) → F → Prop} {z : ι → Nat → A} {v : Nat → F} (h : ColShares P z v) (k : Nat) {x : ι → A} {a : F}
    (hx : P x a) : ColShares P (fun i => Function.update (z i) k (x i)) (Function.update v k a) := by
  intro j
  by_cases e : j = k
  · subst e; simpa using hx
  · simpa [Function.update_of_ne e] using h j

theorem ColShares.updates {P : (ι → A) → F → Prop} {z : ι → Nat → A} {v : Nat → F} (h : ColShares P z v) (targets : List Nat)
    {s : ι → List A} {u : List F} (hs : Cols P s u) :
    ColShares P (fun i => (targets.zip (s i)).foldl (fun z x => Function.update z x.1 x.2) (z i))
      ((targets.zip u).foldl (fun z x => Function.update z x.1 x.2) v) := by
  obtain ⟨l, rfl, hl⟩ := hs
  induction hl generalizing targets z v with
  | nil => simpa using h
  | cons hx _ ih =>
    cases targets with
    | nil => simpa using h
    | cons k ks =>
      simp only [List.map_cons, List.zip_cons_cons, List.foldl_cons]
      exact ih (h.update k hx) ks

theorem ColShares.gaps {P : (ι → A) → F → Prop} {z : ι → Nat → A} {v : Nat → F} (h : ColShares P z v) (ranges : List (Nat × Nat))
    (l : List Nat) :
    ColShares P (fun i => l.foldl (fun z k => match gapStart ranges k with
        | some s => Function.update z k (z s)
        | none => z) (z i))
      (l.foldl (fun z k => match gapStart ranges k with
        | some s => Function.update z k (z s)
        | none => z) v) := by
  induction l generalizing z v with
  | nil => exact h
  | cons k l ih =>
    simp only [List.foldl_cons]
    cases gapStart ranges k with
    | none => exact ih h
    | some s => exact ih (h.update k (h s))

/-- The columns of the lookup argument that all parties know. -/
def lookupPublic : List Col := [.qr, .qm, .qc, .qo, .qLookup, .table1, .table2, .table3, .table4]

/-- The columns of the lookup argument that are shared. -/
def lookupShared : List Col := [.wl, .wr, .wo, .wlShift, .wrShift, .woShift, .lookupReadTags]

variable {d : ι → CoDriver c F A} {P : (ι → A) → F → Prop} {B : Prop}
  {CS : {α : Type} → Nat → (ι → c α) → ((ι → α) → Prop) → Prop} (S : CoSim d P B CS)

include S

namespace CoSim

theorem bind' {α β : Type} {k j m : Nat} {q : ι → c α} {f : ι → α → c β} {Q : (ι → α) → Prop} {Q' : (ι → β) → Prop}
    (h : CS k q Q) (h' : ∀ a, Q a → CS j (fun i => f i (a i)) Q') (hm : k + j ≤ m) : CS m (fun i => q i >>= f i) Q' :=
  S.rules.weak (S.rules.bind h h') hm

theorem lift {α β : Type} {k : Nat} {a : α} {f : ι → α → c β} {Q' : (ι → β) → Prop} (h : CS k (fun i => f i a) Q') :
    CS k (fun i => (d i).lift (.ok a) >>= f i) Q' :=
  S.bind' (k := 0) (S.rules.pure (a := fun _ => a) (Q := fun x => x = fun _ => a) rfl) (by rintro _ rfl; exact h) (by omega)

theorem randInv (m : Nat) : CS (3 * m) (fun i => randInv (d i).rand (d i).invMany m) fun r => ∃ v : List F, v.length = m ∧ 0 ∉ v ∧
    Cols P (fun i => (r i).1) v ∧ Cols P (fun i => (r i).2) (v.map (·⁻¹)) := by
  unfold Plonk.randInv
  refine S.bind' (j := 2 * m) (S.rands m) ?_ (by omega)
  rintro r ⟨v, hl, hr, h0⟩
  refine S.bind' (j := 0) (S.invMany hr h0) ?_ (by omega)
  rintro ri ⟨hz, hri⟩
  exact S.rules.pure (a := fun i => (r i, ri i)) ⟨v, hl, hz, hr, hri⟩

theorem arrayProdMul {s : ι → List A} {av : List F} (h : Cols P s av) :
    CS (6 * av.length + 3) (fun i => (d i).arrayProdMul (s i)) fun r => Cols P r (prefixProducts 1 av) := by
  unfold CoDriver.arrayProdMul
  have l3 : ∀ i, (s i).length = av.length := fun i => h.length i
  generalize hn : av.length = n at *
  simp only [l3]
  refine S.bind' (j := 3 * n) (S.randInv (n + 1)) ?_ (by omega)
  rintro r ⟨rv, hl, hnz, hr, hri⟩
  cases rv with
  | nil => simp at hl
  | cons r0 rs =>
  have hl' : rs.length = n := by simpa using hl
  have hr0 : r0 ≠ 0 := fun e => hnz (by simp [e])
  have hrs : ∀ x ∈ rs, x ≠ 0 := fun x hx e => hnz (by simp [← e, hx])
  have c0 : P (fun i => (r i).2.getD 0 0) r0⁻¹ := Groth16.Cols.getD hri S.linear.zero 0
  have c1 : Cols P (fun i => List.replicate n ((r i).2.getD 0 0)) (List.replicate n r0⁻¹) := Cols.replicate n c0
  have c2 : Cols P (fun i => (r i).1.tail) rs := by simpa using hr.drop 1
  have c3 : Cols P (fun i => (r i).2.tail) (rs.map (·⁻¹)) := by simpa using hri.drop 1
  have e3 := S.mulMany c1 c2 (by simp [hl'])
  rw [List.length_replicate] at e3
  refine S.bind' (j := 2 * n) e3 (fun ub hub => ?_) (by omega)
  have e4 := S.mulMany (hr.take n) h (by simp [hl', hn])
  rw [show ((r0 :: rs).take n).length = n by simp [hl']] at e4
  refine S.bind' (j := n) e4 (fun mu hmu => ?_) (by omega)
  have e5 := S.mulOpenMany hmu c3 (by simp [hl', hn])
  rw [show (List.zipWith (· * ·) ((r0 :: rs).take n) av).length = n by simp [hl', hn]] at e5
  refine S.bind' (j := 0) e5 (fun op hop => ?_) (by omega)
  subst hop
  have key := Plonk.unblind_eq r0⁻¹ av rs r0 1 (by rw [hl', hn]) hrs
  rw [hn] at key
  have hfin := Cols.zipWith (W := P) (f := fun _ (o : F) (u : A) => o • u) (g := fun o u => o • u)
    (Groth16.cols_const (ι := ι) (prefixProducts 1 (List.zipWith (· * ·)
    (List.zipWith (· * ·) ((r0 :: rs).take n) av) (rs.map (·⁻¹))))) hub (by rintro _ o s v rfl hs; exact S.linear.smul o s v hs)
  rw [key, show (1 : F) * r0 * r0⁻¹ = 1 by field_simp] at hfin
  exact S.rules.pure hfin

theorem unblindInv {r : ι → List A} {v x : List F} (hr : Cols P r v) (hl : x.length = v.length) (h0 : 0 ∉ v) :
    Cols P (fun i => List.zipWith (fun (r : A) (y : F) => if y = 0 then 0 else y⁻¹ • r) (r i) (List.zipWith (· * ·) x v))
      (x.map (·⁻¹)) := by
  obtain ⟨l, rfl, hlr⟩ := hr
  induction hlr generalizing x with
  | nil =>
    obtain rfl := List.length_eq_zero_iff.mp hl
    exact Cols.nil
  | @cons s a l v hs _ ih =>
    cases x with
    | nil => simp at hl
    | cons b x =>
      have ha : a ≠ 0 := fun e => h0 (by simp [e])
      have := ih (x := x) (by simpa using hl) fun h => h0 (by simp [h])
      simp only [List.map_cons, List.zipWith_cons_cons]
      refine Cols.cons (x := fun i => if b * a = 0 then 0 else (b * a)⁻¹ • s i) ?_ this
      by_cases hb : b = 0
      · subst hb
        simpa using S.linear.zero
      · simp only [mul_eq_zero, hb, ha, or_self, if_false]
        have := S.linear.smul (b * a)⁻¹ s a hs
        have e : (b * a)⁻¹ • a = b⁻¹ := by rw [smul_eq_mul]; field_simp
        rwa [e] at this

theorem invLeaking {s : ι → List A} {x : List F} (h : Cols P s x) :
    CS (2 * x.length) (fun i => (d i).invLeaking (s i)) fun r => B ∨ Cols P r (x.map (·⁻¹)) := by
  unfold CoDriver.invLeaking
  simp only [h.length]
  refine S.bind' (j := x.length) (S.rands x.length) ?_ (by omega)
  rintro r ⟨v, hl, hr, h0⟩
  refine S.bind' (j := 0) (S.mulOpenMany h hr hl.symm) ?_ (by omega)
  rintro _ rfl
  refine S.rules.pure ?_
  by_cases hz : 0 ∈ v
  · exact .inl (h0 hz)
  · exact .inr (S.unblindInv hr hl.symm hz)

theorem invInPlace {s : ι → List A} {x : List F} (h : Cols P s x) (hx : 0 ∉ x) :
    CS (2 * x.length) (fun i => (d i).invInPlace (s i)) fun r => Cols P r (x.map (·⁻¹)) := by
  unfold CoDriver.invInPlace
  simp only [h.length]
  refine S.bind' (j := x.length) (S.rands x.length) ?_ (by omega)
  rintro r ⟨v, hl, hr, h0⟩
  refine S.bind' (j := 0) (S.mulOpenMany h hr hl.symm) ?_ (by omega)
  rintro _ rfl
  by_cases hz : (List.zipWith (· * ·) x v).any (fun y => decide (y = 0)) = true
  · simp only [hz, if_true]
    refine S.fail ?_ _ _
    obtain ⟨y, hy, hy0⟩ := List.any_eq_true.mp hz
    rw [decide_eq_true_eq] at hy0
    subst hy0
    rcases Plonk.zero_mem_zipWith_mul _ _ hy with h | h
    · exact absurd h hx
    · exact h0 h
  · simp only [hz]
    refine S.rules.pure ?_
    have hz' : 0 ∉ v := by
      intro hv
      obtain ⟨k, hk, hv⟩ := List.getElem_of_mem hv
      refine hz (List.any_eq_true.mpr ⟨0, List.mem_iff_getElem.mpr ⟨k, by simp; omega, by simp [hv]⟩, by simp⟩)
    have := S.unblindInv hr hl.symm hz'
    have e : ∀ i, List.zipWith (fun (r : A) (y : F) => if y = 0 then 0 else y⁻¹ • r) (r i) (List.zipWith (· * ·) x v) =
        List.zipWith (fun (r : A) (y : F) => y⁻¹ • r) (r i) (List.zipWith (· * ·) x v) := by
      intro i
      refine List.ext_getElem (by simp) fun k h1 h2 => ?_
      have hk : k < (List.zipWith (· * ·) x v).length := by
        rw [List.length_zipWith] at h1
        omega
      have hne : (List.zipWith (· * ·) x v)[k] ≠ 0 := fun h0 =>
        hz (List.any_eq_true.mpr ⟨_, List.getElem_mem hk, decide_eq_true h0⟩)
      simp only [List.getElem_zipWith] at hne ⊢
      rw [if_neg hne]
    simpa only [e] using this

theorem invInPlace_zero (hB : B) {s : ι → List A} {x : List F} (h : Cols P s x) (hx : 0 ∈ x) :
    CS (2 * x.length) (fun i => (d i).invInPlace (s i)) fun _ => False := by
  unfold CoDriver.invInPlace
  simp only [h.length]
  refine S.bind' (j := x.length) (S.rands x.length) ?_ (by omega)
  rintro r ⟨v, hl, hr, h0⟩
  refine S.bind' (j := 0) (S.mulOpenMany h hr hl.symm) ?_ (by omega)
  rintro _ rfl
  have hz : (List.zipWith (· * ·) x v).any (fun y => decide (y = 0)) = true := by
    obtain ⟨k, hk, hv⟩ := List.getElem_of_mem hx
    exact List.any_eq_true.mpr ⟨0, List.mem_iff_getElem.mpr ⟨k, by simp; omega, by simp [hv]⟩, by simp⟩
  simp only [hz, if_true]
  exact S.fail hB _ _

theorem numDenom {w1 w2 : ι → Nat → A} {v1 v2 : Nat → F} (h1 : ColShares P w1 v1) (h2 : ColShares P w2 v2) (p1 p2 : Nat → F) (β γ : F)
    (rows : List Nat) : CS rows.length (fun i => (d i).numDenom (w1 i) (w2 i) p1 p2 β γ rows) fun r =>
      Cols P r (rows.map fun k => (v1 k + p1 k * β + γ) * (v2 k + p2 k * β + γ)) := by
  have e1 : Cols P (fun i => rows.map fun k => (d i).addPub (w1 i k) (p1 k * β + γ)) (rows.map fun k => v1 k + p1 k * β + γ) :=
    cols_rows rows fun k _ => by have := S.linear.addPub _ _ (p1 k * β + γ) (h1 k); rwa [← add_assoc] at this
  have e2 : Cols P (fun i => rows.map fun k => (d i).addPub (w2 i k) (p2 k * β + γ)) (rows.map fun k => v2 k + p2 k * β + γ) :=
    cols_rows rows fun k _ => by have := S.linear.addPub _ _ (p2 k * β + γ) (h2 k); rwa [← add_assoc] at this
  have := S.mulMany e1 e2 (by simp)
  simp only [List.zipWith_map, List.zipWith_self, List.length_map] at this
  exact this

theorem lookupTerm (β γ : F) {q : Col → F} {e : ι → Col → A} {v : Col → F} (hq : ∀ c ∈ lookupPublic, q c = v c)
    (he : ∀ c ∈ lookupShared, P (fun i => e i c) (v c)) :
    P (fun i => (d i).lookupTerm β γ q (e i)) (computeReadTerm β γ v) := by
  have L := S.linear
  have h : ∀ c ∈ lookupShared, P (fun i => e i c) (v c) := he
  have e1 := L.add _ _ _ _ (h .wl (by decide)) (L.addPub _ _ γ (L.smul (q .qr) _ _ (h .wlShift (by decide))))
  have e2 := L.add _ _ _ _ (h .wr (by decide)) (L.smul (q .qm) _ _ (h .wrShift (by decide)))
  have e3 := L.add _ _ _ _ (h .wo (by decide)) (L.smul (q .qc) _ _ (h .woShift (by decide)))
  have := L.addPub _ _ (β * β * β * q .qo) (L.add _ _ _ _ (L.add _ _ _ _ e1 (L.smul β _ _ e2)) (L.smul (β * β) _ _ e3))
  have ev : v .wl + (q .qr • v .wlShift + γ) + β • (v .wr + q .qm • v .wrShift) + (β * β) • (v .wo + q .qc • v .woShift) +
      β * β * β * q .qo = computeReadTerm β γ v := by
    simp only [computeReadTerm, smul_eq_mul, hq .qr (by decide), hq .qm (by decide), hq .qc (by decide), hq .qo (by decide)]
    ring
  rw [ev] at this
  exact this

theorem lookupInverses (β γ : F) (size : Nat) {q : Col → Nat → F} {e : ι → Col → Nat → A} {table : Col → Nat → F}
    (hq : ∀ c ∈ lookupPublic, q c = table c) (he : ∀ c ∈ lookupShared, ColShares P (fun i => e i c) (table c))
    (hsel : ∀ i < size, table .qLookup i = 0 ∨ table .qLookup i = 1)
    (htag : ∀ i < size, table .lookupReadTags i = 0 ∨ table .lookupReadTags i = 1) :
    CS (3 * size) (fun i => (d i).lookupInverses β γ size q (e i)) fun r =>
      B ∨ Cols P r ((List.range size).map (Honk.lookupInverses β γ table)) := by
  unfold CoDriver.lookupInverses
  have L := S.linear
  have e1 : Cols P (fun i => (List.range size).map fun k => computeWriteTerm β γ (fun c => q c k) •
      (d i).lookupTerm β γ (fun c => q c k) (fun c => e i c k))
      ((List.range size).map fun k => computeReadTerm β γ (fun c => table c k) * computeWriteTerm β γ (fun c => table c k)) := by
    refine cols_rows _ fun k _ => ?_
    have := L.smul (computeWriteTerm β γ (fun c => q c k)) _ _ (S.lookupTerm β γ (q := fun c => q c k) (e := fun i c => e i c k)
      (v := fun c => table c k) (fun c hc => by rw [hq c hc]) fun c hc => he c hc k)
    have ew : computeWriteTerm β γ (fun c => q c k) = computeWriteTerm β γ (fun c => table c k) := by
      simp only [computeWriteTerm, hq .table1 (by decide), hq .table2 (by decide), hq .table3 (by decide), hq .table4 (by decide)]
    rw [smul_eq_mul, mul_comm] at this
    rwa [ew] at this ⊢
  have e2 : Cols P (fun i => (List.range size).map fun k => (d i).addPub ((1 - q .qLookup k) • e i .lookupReadTags k) (q .qLookup k))
      ((List.range size).map fun k => if table .qLookup k = 1 ∨ table .lookupReadTags k = 1 then (1 : F) else 0) := by
    refine cols_rows _ fun k hk => ?_
    have hk := List.mem_range.mp hk
    have := L.addPub _ _ (q .qLookup k) (L.smul (1 - q .qLookup k) _ _ (he .lookupReadTags (by decide) k))
    rw [hq .qLookup (by decide)] at this ⊢
    have ev : (1 - table .qLookup k) • table .lookupReadTags k + table .qLookup k =
        if table .qLookup k = 1 ∨ table .lookupReadTags k = 1 then (1 : F) else 0 := by
      rcases hsel k hk with h | h <;> rcases htag k hk with h' | h' <;> simp [h, h']
    rwa [ev] at this
  have e3 := S.mulMany e1 e2 (by simp)
  rw [List.length_map, List.length_range] at e3
  refine S.bind' (j := 2 * size) e3 (fun l hl => ?_) (by omega)
  have e4 := S.invLeaking hl
  rw [show (List.zipWith (· * ·) ((List.range size).map fun k => computeReadTerm β γ (fun c => table c k) *
    computeWriteTerm β γ (fun c => table c k)) ((List.range size).map fun k => if table .qLookup k = 1 ∨
      table .lookupReadTags k = 1 then (1 : F) else 0)).length = size by simp] at e4
  refine S.rules.mono e4 fun r hr => hr.imp id fun hr => ?_
  have ev : (List.zipWith (· * ·) ((List.range size).map fun k => computeReadTerm β γ (fun c => table c k) *
      computeWriteTerm β γ (fun c => table c k)) ((List.range size).map fun k => if table .qLookup k = 1 ∨
      table .lookupReadTags k = 1 then (1 : F) else 0)).map (·⁻¹) = (List.range size).map (Honk.lookupInverses β γ table) := by
    rw [List.zipWith_map, List.zipWith_self, List.map_map]
    refine List.map_congr_left fun k _ => ?_
    simp only [Function.comp_apply, Honk.lookupInverses]
    split_ifs <;> simp
  rwa [ev] at hr

omit [Field F] [DecidableEq F] [Zero A] [Add A] [Sub A] [Neg A] [SMul F A] S [Monad c] in
theorem foldl_zip_mul [Mul F] (targets : List Nat) (a b : List F) (z : Nat → F) :
    (targets.zip (a.zip b)).foldl (fun z x => Function.update z x.1 (x.2.1 * x.2.2)) z =
      (targets.zip (List.zipWith (· * ·) a b)).foldl (fun z x => Function.update z x.1 x.2) z := by
  induction targets generalizing a b z with
  | nil => rfl
  | cons t ts ih =>
    cases a with
    | nil => rfl
    | cons x a =>
      cases b with
      | nil => rfl
      | cons y b => simp only [List.zip_cons_cons, List.foldl_cons, List.zipWith_cons_cons]; exact ih a b _

omit [DecidableEq F] [Zero A] [Add A] [Sub A] [Neg A] [SMul F A] S [Monad c] in
theorem accumulate_eq (l : List F) : accumulate l = prefixProducts 1 l := by
  have : ∀ (acc : List F) (x : F), (l.foldl (fun (s : List F × F) x => (s.1 ++ [x * s.2], x * s.2)) (acc, x)).1 =
      acc ++ prefixProducts x l := by
    induction l with
    | nil => intro acc x; simp [prefixProducts]
    | cons a l ih => intro acc x; rw [List.foldl_cons, ih, prefixProducts, mul_comm a x]; simp
  simpa [accumulate] using this [] 1

omit [DecidableEq F] [Zero A] [Add A] [Sub A] [Neg A] [SMul F A] S [Monad c] in
theorem zero_notMem_prefix (l : List F) (acc : F) (h : acc ≠ 0) (hl : ∀ x ∈ l, x ≠ 0) : 0 ∉ prefixProducts acc l := by
  induction l generalizing acc with
  | nil => simp [prefixProducts]
  | cons a l ih =>
    have ha : acc * a ≠ 0 := mul_ne_zero h (hl a (by simp))
    rw [prefixProducts, List.mem_cons]
    rintro (h0 | h0)
    · exact ha h0.symm
    · exact ih _ ha (fun x hx => hl x (by simp [hx])) h0

/-- The rows of the product. -/
theorem grandProduct {key : Key F} {w : ι → Fin 4 → Nat → A} {v : Fin 4 → Nat → F} (hw : ∀ j, ColShares P (fun i => w i j) (v j))
    (β γ : F) {z : Nat → F} (hz : Honk.grandProduct key v β γ = .ok z) {rows : List Nat}
    (hrows : (List.range ((if key.active.idxs.length > 0 then key.active.idxs.length else key.finalActive + 1) - 1)).mapM
      (fun i => if key.active.idxs.length > 0 then index key.active.idxs i else Except.ok i) = .ok rows)
    (hne : ∀ k ∈ rows, rowProduct β γ v key.sigma k ≠ 0) :
    CS (21 * rows.length + 6) (fun i => (d i).grandProduct key (w i) β γ) fun r => ColShares P r z := by
  unfold CoDriver.grandProduct
  unfold Honk.grandProduct at hz
  simp only [hrows, bind, Except.bind, pure, Except.pure] at hz
  dsimp only
  rw [hrows]
  refine S.lift ?_
  by_cases hs : key.size ≤ 1
  · simp [hs, throw, throwThe, MonadExceptOf.throw] at hz
  simp only [hs, if_false] at hz ⊢
  cases ht : (List.range ((if key.active.idxs.length > 0 then key.active.idxs.length else key.finalActive + 1) - 1)).mapM
      (fun i => if key.active.idxs.length > 0 then index key.active.idxs (i + 1) else Except.ok (i + 1)) with
  | error e => rw [ht] at hz; simp at hz
  | ok targets =>
  rw [ht] at hz
  dsimp only at hz
  refine S.lift ?_
  generalize hn : rows.length = n at *
  have e1 := S.numDenom (hw 0) (hw 1) (key.sigma 0) (key.sigma 1) β γ rows
  have e2 := S.numDenom (hw 2) (hw 3) (key.sigma 2) (key.sigma 3) β γ rows
  have e3 := S.numDenom (hw 0) (hw 1) (key.id 0) (key.id 1) β γ rows
  have e4 := S.numDenom (hw 2) (hw 3) (key.id 2) (key.id 3) β γ rows
  rw [hn] at e1 e2 e3 e4
  have evs : ∀ s : Fin 4 → Nat → F, List.zipWith (· * ·) (rows.map fun k => (v 0 k + s 0 k * β + γ) * (v 1 k + s 1 k * β + γ))
      (rows.map fun k => (v 2 k + s 2 k * β + γ) * (v 3 k + s 3 k * β + γ)) = rows.map (rowProduct β γ v s) := by
    intro s
    rw [List.zipWith_map, List.zipWith_self]
    refine List.map_congr_left fun k _ => ?_
    rw [rowProduct]; ring
  refine S.bind' (j := 20 * n + 6) e1 (fun d1 h1 => ?_) (by omega)
  refine S.bind' (j := 19 * n + 6) e2 (fun d2 h2 => ?_) (by omega)
  refine S.bind' (j := 18 * n + 6) e3 (fun n1 h3 => ?_) (by omega)
  refine S.bind' (j := 17 * n + 6) e4 (fun n2 h4 => ?_) (by omega)
  have e5 := S.mulMany h3 h4 (by simp)
  have e6 := S.mulMany h1 h2 (by simp)
  rw [evs, List.length_map, hn] at e5 e6
  refine S.bind' (j := 16 * n + 6) e5 (fun nu h5 => ?_) (by omega)
  refine S.bind' (j := 15 * n + 6) e6 (fun de h6 => ?_) (by omega)
  have e7 := S.arrayProdMul h5
  have e8 := S.arrayProdMul h6
  rw [List.length_map, hn] at e7 e8
  refine S.bind' (j := 9 * n + 3) e7 (fun nu h7 => ?_) (by omega)
  refine S.bind' (j := 3 * n) e8 (fun de h8 => ?_) (by omega)
  have h0 : 0 ∉ prefixProducts 1 (rows.map (rowProduct β γ v key.sigma)) :=
    zero_notMem_prefix _ _ one_ne_zero fun x hx => by
      obtain ⟨k, hk, rfl⟩ := List.mem_map.mp hx
      exact hne k hk
  have e9 := S.invInPlace h8 h0
  rw [Plonk.prefixProducts_length, List.length_map, hn] at e9
  refine S.bind' (j := n) e9 (fun de h9 => ?_) (by omega)
  have e10 := S.mulMany h7 h9 (by simp [Plonk.prefixProducts_length])
  rw [Plonk.prefixProducts_length, List.length_map, hn] at e10
  refine S.bind' (j := 0) e10 (fun mu h10 => ?_) (by omega)
  rw [accumulate_eq, accumulate_eq, foldl_zip_mul] at hz
  have hinit : ColShares P (fun i => Function.update (fun _ => (0 : A)) 1 ((d i).promote 1)) (Function.update (fun _ => (0 : F)) 1 1) :=
    ColShares.update (z := fun _ _ => 0) (v := fun _ => 0) (fun _ => S.linear.zero) 1 (S.linear.promote 1)
  have hup := hinit.updates targets h10
  by_cases ha : key.active.idxs.length > 0
  · simp only [ha, if_true, Except.ok.injEq] at hz ⊢
    subst hz
    exact S.rules.pure (hup.gaps key.active.ranges _)
  · simp only [ha, if_false, Except.ok.injEq] at hz ⊢
    subst hz
    exact S.rules.pure hup

/-- With a zero in a denominator the product cannot be computed. -/
theorem grandProduct_zero (hB : B) {key : Key F} {w : ι → Fin 4 → Nat → A} {v : Fin 4 → Nat → F}
    (hw : ∀ j, ColShares P (fun i => w i j) (v j)) (β γ : F) {rows targets : List Nat}
    (hrows : (List.range ((if key.active.idxs.length > 0 then key.active.idxs.length else key.finalActive + 1) - 1)).mapM
      (fun i => if key.active.idxs.length > 0 then index key.active.idxs i else Except.ok i) = .ok rows)
    (htargets : (List.range ((if key.active.idxs.length > 0 then key.active.idxs.length else key.finalActive + 1) - 1)).mapM
      (fun i => if key.active.idxs.length > 0 then index key.active.idxs (i + 1) else Except.ok (i + 1)) = .ok targets)
    (h0 : 0 ∈ prefixProducts 1 (rows.map (rowProduct β γ v key.sigma))) :
    CS (21 * rows.length + 6) (fun i => (d i).grandProduct key (w i) β γ) fun _ => False := by
  unfold CoDriver.grandProduct
  dsimp only
  rw [hrows, htargets]
  refine S.lift (S.lift ?_)
  generalize hn : rows.length = n at *
  have e1 := S.numDenom (hw 0) (hw 1) (key.sigma 0) (key.sigma 1) β γ rows
  have e2 := S.numDenom (hw 2) (hw 3) (key.sigma 2) (key.sigma 3) β γ rows
  have e3 := S.numDenom (hw 0) (hw 1) (key.id 0) (key.id 1) β γ rows
  have e4 := S.numDenom (hw 2) (hw 3) (key.id 2) (key.id 3) β γ rows
  rw [hn] at e1 e2 e3 e4
  have evs : ∀ s : Fin 4 → Nat → F, List.zipWith (· * ·) (rows.map fun k => (v 0 k + s 0 k * β + γ) * (v 1 k + s 1 k * β + γ))
      (rows.map fun k => (v 2 k + s 2 k * β + γ) * (v 3 k + s 3 k * β + γ)) = rows.map (rowProduct β γ v s) := by
    intro s
    rw [List.zipWith_map, List.zipWith_self]
    refine List.map_congr_left fun k _ => ?_
    rw [rowProduct]; ring
  refine S.bind' (j := 20 * n + 6) e1 (fun d1 h1 => ?_) (by omega)
  refine S.bind' (j := 19 * n + 6) e2 (fun d2 h2 => ?_) (by omega)
  refine S.bind' (j := 18 * n + 6) e3 (fun n1 h3 => ?_) (by omega)
  refine S.bind' (j := 17 * n + 6) e4 (fun n2 h4 => ?_) (by omega)
  have e5 := S.mulMany h3 h4 (by simp)
  have e6 := S.mulMany h1 h2 (by simp)
  rw [evs, List.length_map, hn] at e5 e6
  refine S.bind' (j := 16 * n + 6) e5 (fun nu h5 => ?_) (by omega)
  refine S.bind' (j := 15 * n + 6) e6 (fun de h6 => ?_) (by omega)
  have e7 := S.arrayProdMul h5
  have e8 := S.arrayProdMul h6
  rw [List.length_map, hn] at e7 e8
  refine S.bind' (j := 9 * n + 3) e7 (fun nu h7 => ?_) (by omega)
  refine S.bind' (j := 3 * n) e8 (fun de h8 => ?_) (by omega)
  have e9 := S.invInPlace_zero hB h8 h0
  rw [Plonk.prefixProducts_length, List.length_map, hn] at e9
  exact S.bind' (j := n) e9 (fun de h9 => h9.elim) (by omega)

end CoSim

end Verif.Honk
