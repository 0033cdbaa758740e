import Verif.Honk.CoSumcheck
import Verif.Honk.CoOinkLemmas
import Verif.Honk.RelationLemmas

/-!
# Lemmas: the relations of UltraHonk on shares
-/

namespace Verif.Honk

open Plonk (Linear)

/-! ## Programs that keep an invariant -/

section

variable {ι S M : Type} [DecidableEq ι]

/-- From every state with the invariant the parties reach a result with `Q` and a state with the invariant. -/
def IS (I : (ι → S) → Prop) {α : Type} (q : ι → MPC ι S M Err α) (Q : (ι → α) → Prop) : Prop :=
  ∀ st, I st → Spec q st fun v s => Q v ∧ I s

variable {I : (ι → S) → Prop} {α β : Type}

theorem IS.pure {v : ι → α} {Q : (ι → α) → Prop} (h : Q v) : IS (M := M) I (fun i => Pure.pure (v i)) Q :=
  fun _ hst => Spec.pure ⟨h, hst⟩

theorem IS.bind {q : ι → MPC ι S M Err α} {f : ι → α → MPC ι S M Err β} {Q : (ι → α) → Prop} {Q' : (ι → β) → Prop} (h : IS I q Q)
    (h' : ∀ v, Q v → IS I (fun i => f i (v i)) Q') : IS I (fun i => q i >>= f i) Q' :=
  fun st hst => Spec.bind (h st hst) fun v s hv => h' v hv.1 s hv.2

theorem IS.mono {q : ι → MPC ι S M Err α} {Q Q' : (ι → α) → Prop} (h : IS I q Q) (h' : ∀ v, Q v → Q' v) : IS I q Q' :=
  fun st hst => (h st hst).mono fun v _ hv => ⟨h' v hv.1, hv.2⟩

end

variable {ι S M F A : Type} [DecidableEq ι] [Field F] [DecidableEq F] [Zero A] [Add A] [Sub A] [Neg A] [SMul F A]

/-- What the drivers guarantee; `P` is for shares and `H` for half shares. -/
structure SumSim (I : (ι → S) → Prop) (d : ι → SumDriver (MPC ι S M Err) F A) (P : (ι → A) → F → Prop) (H : (ι → F) → F → Prop) : Prop where
  linear : Linear P (fun i => (d i).addPub) (fun i => (d i).addPub 0)
  hzero : H (fun _ => 0) 0
  hadd : ∀ {x y : ι → F} {v w : F}, H x v → H y w → H (fun i => x i + y i) (v + w)
  hmul : ∀ {x : ι → F} {v : F} (k : F), H x v → H (fun i => x i * k) (v * k)
  toHalf : ∀ {x : ι → A} {v : F} (k : F), P x v → H (fun i => (d i).toHalf k (x i)) (k * v)
  addPubHalf : ∀ {x : ι → F} {v : F} (k : F), H x v → H (fun i => (d i).addPubHalf (x i) k) (v + k)
  localMulMany : ∀ {s t : ι → List A} {v u : List F}, Cols P s v → Cols P t u → v.length = u.length →
    IS I (fun i => (d i).localMulMany (s i) (t i)) fun r => Cols H r (List.zipWith (· * ·) v u)
  mulMany : ∀ {s t : ι → List A} {v u : List F}, Cols P s v → Cols P t u → v.length = u.length →
    IS I (fun i => (d i).mulMany (s i) (t i)) fun r => Cols P r (List.zipWith (· * ·) v u)
  reshare : ∀ {s : ι → List F} {v : List F}, Cols H s v → IS I (fun i => (d i).reshare (s i)) fun r => Cols P r v
  openMany : ∀ {s : ι → List A} {v : List F}, Cols P s v → IS I (fun i => (d i).openMany (s i)) fun r => r = fun _ => v

/-! ## One multiplication of several vectors -/

/-- What a multiplication adds to a point. -/
def PExt {X Y : Type} (P : (ι → A) → F → Prop) (R : (ι → X) → Y → Prop) (x : ι → X × (Nat → A)) (y : Y × (Nat → F)) : Prop :=
  R (fun i => (x i).1) y.1 ∧ ∀ j, P (fun i => (x i).2 j) (y.2 j)

/-- The products of the pairs of factors. -/
def products {Y : Type} (gs : List (Y → F × F)) (y : Y) (j : Nat) : F := (gs.map fun g => (g y).1 * (g y).2).getD j 0

/-- The factors on shares belong to those in the clear. -/
def PFactor {X Y : Type} (P : (ι → A) → F → Prop) (R : (ι → X) → Y → Prop) (f : ι → X → A × A) (g : Y → F × F) : Prop :=
  ∀ x y, R x y → P (fun i => (f i (x i)).1) (g y).1 ∧ P (fun i => (f i (x i)).2) (g y).2

omit [DecidableEq ι] [Field F] [DecidableEq F] [Zero A] [Add A] [Sub A] [Neg A] [SMul F A] in
theorem cols_flatMap {α α' β β' : Type} {Q : (ι → α) → α' → Prop} {R : (ι → β) → β' → Prop} {fs : ι → List α} {gs : List α'}
    {h : ι → α → List β} {k : α' → List β'} (hf : Cols Q fs gs) (hh : ∀ x v, Q x v → Cols R (fun i => h i (x i)) (k v)) :
    Cols R (fun i => (fs i).flatMap (h i)) (gs.flatMap k) := by
  obtain ⟨l, rfl, hl⟩ := hf
  induction hl with
  | nil => exact Cols.nil
  | @cons x v xs vs hx _ ih =>
    simp only [List.map_cons, List.flatMap_cons]
    exact (hh x v hx).append ih

theorem zipWith_flatMap {Y : Type} (gs : List (Y → F × F)) (ys : List Y) :
    List.zipWith (· * ·) (gs.flatMap fun g => ys.map fun y => (g y).1) (gs.flatMap fun g => ys.map fun y => (g y).2)
      = gs.flatMap fun g => ys.map fun y => (g y).1 * (g y).2 := by
  induction gs with
  | nil => rfl
  | cons g gs ih =>
    simp only [List.flatMap_cons]
    rw [List.zipWith_append (by simp), ih]
    congr 1
    simp [List.zipWith_map, List.zipWith_self]

theorem getD_flatMap {Y : Type} (gs : List (Y → F)) (ys : List Y) (j k : Nat) (y : Y) (hk : ys[k]? = some y) :
    (gs.flatMap fun g => ys.map g).getD (j * ys.length + k) 0 = (gs.map fun g => g y).getD j 0 := by
  have hlt : k < ys.length := by
    by_contra h
    rw [List.getElem?_eq_none (by omega)] at hk
    cases hk
  induction gs generalizing j with
  | nil => simp
  | cons g gs ih =>
    rw [List.flatMap_cons]
    cases j with
    | zero =>
      rw [List.getD, List.getElem?_append_left (by simpa using hlt)]
      simp [hk]
    | succ j =>
      rw [List.getD, List.getElem?_append_right (by simp [Nat.succ_mul]; omega),
        show (j + 1) * ys.length + k - (ys.map g).length = j * ys.length + k by simp [Nat.succ_mul]; omega, ← List.getD_eq_getElem?_getD, ih]
      simp

namespace SumSim

variable {I : (ι → S) → Prop} {d : ι → SumDriver (MPC ι S M Err) F A} {P : (ι → A) → F → Prop} {H : (ι → F) → F → Prop}

theorem mulRound (h : SumSim I d P H) {X Y : Type} {R : (ι → X) → Y → Prop} {xs : ι → List X} {ys : List Y} (hx : Cols R xs ys)
    {fs : ι → List (X → A × A)} {gs : List (Y → F × F)} (hf : Cols (PFactor P R) fs gs) :
    IS I (fun i => Honk.mulRound (d i) (xs i) (fs i)) fun r => Cols (PExt P R) r (ys.map fun y => (y, products gs y)) := by
  have h1 : Cols P (fun i => (fs i).flatMap fun f => (xs i).map fun x => (f x).1) (gs.flatMap fun g => ys.map fun y => (g y).1) :=
    cols_flatMap hf fun f g hfg => hx.map fun x y hxy => (hfg x y hxy).1
  have h2 : Cols P (fun i => (fs i).flatMap fun f => (xs i).map fun x => (f x).2) (gs.flatMap fun g => ys.map fun y => (g y).2) :=
    cols_flatMap hf fun f g hfg => hx.map fun x y hxy => (hfg x y hxy).2
  refine (h.mulMany h1 h2 (by simp)).bind fun mul hm => IS.pure ?_
  rw [zipWith_flatMap] at hm
  refine Cols.of_get ys.length (fun i => by simp [hx.length i]) (by simp) fun k hk => ?_
  obtain ⟨x, hx1, hx2⟩ := hx.get (List.getElem?_eq_getElem hk)
  simp only [List.getElem_map, List.getElem_zipIdx]
  have e : ∀ i (hi : k < (xs i).length), (xs i)[k] = x i := fun i hi => by
    have := hx1 i
    rw [List.getElem?_eq_getElem hi] at this
    exact Option.some.inj this
  refine ⟨?_, fun j => ?_⟩
  · simpa only [e] using hx2
  · have := Groth16.Cols.getD hm h.linear.zero (j * ys.length + k)
    have e2 := getD_flatMap (gs.map fun g y => (g y).1 * (g y).2) ys j k ys[k] (List.getElem?_eq_getElem hk)
    rw [List.flatMap_map, List.map_map] at e2
    rw [e2] at this
    simpa [products, hx.length, Function.comp_def] using this

end SumSim

end Verif.Honk
