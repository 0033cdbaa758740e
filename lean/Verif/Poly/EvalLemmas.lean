import Verif.Poly.Eval
import Verif.Spec.Poly
import Verif.Spec.Shamir
import Verif.Spec.Sharing
import Verif.Shamir.ShamirLemmas
import Verif.Rep3.ArithLemmas
import Mathlib.Algebra.BigOperators.Group.List.Basic
import Mathlib.Tactic.Ring
import Mathlib.Tactic.LinearCombination

/-!
# Lemmas: evaluating shared polynomials

One invariant serves both kinds of sharing: a predicate `P s v` ("the parties hold shares `s` of `v`")
closed under the local operations.  The groupings may differ between the parties, so the shares are
first projected to one component, where the result does not depend on the grouping.
-/

namespace Verif.Poly

variable {S F : Type} [Field F]

theorem polyValue_nil (x : F) : polyValue ([] : List F) x = 0 := rfl

theorem mapIdx_sum_shift (cs : List F) (x : F) (k : Nat) :
    (cs.mapIdx fun i c => c * x ^ (i + k)).sum = polyValue cs x * x ^ k := by
  induction cs generalizing k with
  | nil => simp [polyValue]
  | cons c cs ih =>
    simp only [polyValue, List.mapIdx_cons, List.sum_cons] at ih ⊢
    have h1 := ih (1 + k)
    have h2 := ih 1
    simp only [Nat.add_assoc] at h1 ⊢
    rw [h1, h2]
    ring

theorem polyValue_cons (c : F) (cs : List F) (x : F) :
    polyValue (c :: cs) x = c + polyValue cs x * x := by
  have := mapIdx_sum_shift cs x 1
  simp only [polyValue, List.mapIdx_cons, List.sum_cons] at this ⊢
  rw [this]; ring

theorem polyValue_append (cs ds : List F) (x : F) :
    polyValue (cs ++ ds) x = polyValue cs x + polyValue ds x * x ^ cs.length := by
  induction cs with
  | nil => simp [polyValue_nil]
  | cons c cs ih => rw [List.cons_append, polyValue_cons, polyValue_cons, ih, List.length_cons]; ring

theorem map_mapIdx' {α β γ : Type} (g : β → γ) (f : Nat → α → β) (l : List α) :
    (l.mapIdx f).map g = l.mapIdx fun i a => g (f i a) := by
  induction l generalizing f with
  | nil => rfl
  | cons a l ih => simp [List.mapIdx_cons, ih]

theorem mapIdx_map' {α β γ : Type} (g : α → β) (f : Nat → β → γ) (l : List α) :
    (l.map g).mapIdx f = l.mapIdx fun i a => f i (g a) := by
  induction l generalizing f with
  | nil => rfl
  | cons a l ih => simp [List.mapIdx_cons, ih]

/-- A component of a share on which the operations act as those of the field. -/
structure IsComponent (ops : Ops S F) (φ : S → F) : Prop where
  add : ∀ a b, φ (ops.add a b) = φ a + φ b
  mul : ∀ a x, φ (ops.mulPublic a x) = φ a * x
  zero : φ ops.zeroShare = 0

variable {ops : Ops S F} {φ : S → F}

theorem horner_component (h : IsComponent ops φ) (cs : List S) (x : F) :
    φ (hornerEvaluate ops cs x) = polyValue (cs.map φ) x := by
  induction cs with
  | nil => exact h.zero
  | cons c cs ih =>
    rw [List.map_cons, polyValue_cons, ← ih]
    show φ (ops.add (ops.mulPublic (hornerEvaluate ops cs x) x) c) = _
    rw [h.add, h.mul, add_comm]

theorem reduces_component (h : IsComponent ops φ) {l : List S} {r : S}
    (hr : Reduces ops.add ops.zeroShare l r) : φ r = (l.map φ).sum := by
  induction hr with
  | identity => simpa using h.zero
  | item x => simp
  | node _ _ h1 h2 => rw [h.add, h1, h2, List.map_append, List.sum_append]

theorem chunks_sum (f : List F → F) (x : F) (hf : ∀ l, f l = polyValue l x) (n : Nat) (hn : 0 < n)
    (cs : List F) :
    ∀ k, ((chunks n hn cs).mapIdx fun i c => f c * x ^ ((i + k) * n)).sum =
      polyValue cs x * x ^ (k * n) := by
  induction cs using chunks.induct n hn with
  | case1 => intro k; rw [chunks]; simp [polyValue_nil]
  | case2 l hl ih =>
    intro k
    rw [chunks, dif_neg hl, List.mapIdx_cons, List.sum_cons]
    have := ih (k + 1)
    simp only [Nat.add_assoc, Nat.add_comm 1 k] at this ⊢
    rw [this, hf]
    conv_rhs => rw [← List.take_append_drop n l, polyValue_append]
    by_cases hd : l.drop n = []
    · rw [hd, polyValue_nil]; simp
    · have : (l.take n).length = n := by
        rw [List.length_take]
        have := List.length_pos_of_ne_nil hd
        rw [List.length_drop] at this
        omega
      rw [this]; ring

theorem chunks_map {α β : Type} (g : α → β) (n : Nat) (hn : 0 < n) (l : List α) :
    chunks n hn (l.map g) = (chunks n hn l).map (List.map g) := by
  induction l using chunks.induct n hn with
  | case1 => simp [chunks]
  | case2 l hl ih =>
    rw [chunks, dif_neg (by simpa using hl)]
    conv_rhs => rw [chunks, dif_neg hl, List.map_cons, ← ih]
    simp

theorem evalPoly_component (h : IsComponent ops φ) {threads : Nat} {cs : List S} {x : F} {r : S}
    (hr : EvalPoly ops threads cs x r) : φ r = polyValue (cs.map φ) x := by
  rcases hr with ⟨rfl, hr⟩ | ⟨hx, hr⟩
  · cases cs with
    | nil => simp at hr
    | cons c cs =>
      simp only [List.head?_cons, Option.some.injEq] at hr
      subst hr
      rw [List.map_cons, polyValue_cons]; simp
  · rw [reduces_component h hr, partialResults, map_mapIdx']
    simp only [Function.comp_def, h.mul, horner_component h]
    have := chunks_sum (fun l => polyValue l x) x (fun _ => rfl) (elemsPerThread cs.length threads)
      (elemsPerThread_pos _ _) (cs.map φ) 0
    simp only [Nat.zero_mul, pow_zero, mul_one, Nat.add_zero] at this
    rw [← this, chunks_map, mapIdx_map']

/-- There is always a result: `Reduces` can be built from the left. -/
theorem reduces_exists (op : S → S → S) (e : S) (l : List S) : ∃ r, Reduces op e l r := by
  induction l with
  | nil => exact ⟨_, .identity⟩
  | cons x l ih =>
    obtain ⟨r, hr⟩ := ih
    exact ⟨_, Reduces.node (.item x) hr⟩

theorem evalPoly_exists (ops : Ops S F) (threads : Nat) {cs : List S} (hc : cs ≠ []) (x : F) :
    ∃ r, EvalPoly ops threads cs x r := by
  by_cases hx : x = 0
  · cases cs with
    | nil => exact absurd rfl hc
    | cons c cs => exact ⟨c, .inl ⟨hx, rfl⟩⟩
  · obtain ⟨r, hr⟩ := reduces_exists ops.add ops.zeroShare (partialResults ops threads cs x)
    exact ⟨r, .inr ⟨hx, hr⟩⟩

theorem rep3_a : IsComponent (rep3Ops (F := F)) Share.a :=
  ⟨fun _ _ => rfl, fun _ _ => rfl, rfl⟩

theorem rep3_b : IsComponent (rep3Ops (F := F)) Share.b :=
  ⟨fun _ _ => rfl, fun _ _ => rfl, rfl⟩

theorem shamir_component : IsComponent (shamirOps (F := F)) (fun x => x) :=
  ⟨fun _ _ => rfl, fun _ _ => mul_comm _ _, rfl⟩

theorem evalPoly_rep3 {threads : PartyID → Nat} {s : PartyID → List (Share F)} {cs : List F}
    (h : IsShares s cs) {x : F} {r : PartyID → Share F}
    (hr : ∀ i, EvalPoly rep3Ops (threads i) (s i) x (r i)) : IsShare r (polyValue cs x) := by
  obtain ⟨l, rfl, hl⟩ := h
  have ha := fun i => evalPoly_component rep3_a (hr i)
  have hb := fun i => evalPoly_component rep3_b (hr i)
  simp only [List.map_map] at ha hb
  refine ⟨fun i => ?_, ?_⟩
  · rw [hb, ha]
    congr 1
    clear hr ha hb
    induction hl with
    | nil => rfl
    | cons h _ ih => rw [List.map_cons, List.map_cons, ih]; simp only [Function.comp]; rw [h.1 i]
  · rw [ha, ha, ha]
    clear hr ha hb
    induction hl with
    | nil => simp [polyValue_nil]
    | cons h _ ih =>
      simp only [List.map_cons, polyValue_cons, Function.comp]
      rw [← ih, ← h.2]; simp only [Function.comp_def]; ring

theorem evalPoly_shamir {n d : Nat} {threads : Fin n → Nat} {s : Fin n → List F} {cs : List F}
    (h : IsShamirs F d s cs) {x : F} {r : Fin n → F}
    (hr : ∀ i, EvalPoly shamirOps (threads i) (s i) x (r i)) : IsShamir F d r (polyValue cs x) := by
  obtain ⟨l, rfl, hl⟩ := h
  have ha := fun i => evalPoly_component shamir_component (hr i)
  simp only [List.map_id'] at ha
  obtain rfl : r = fun i => polyValue (l.map (· i)) x := funext ha
  clear hr ha
  induction hl with
  | nil => exact IsShamir.const d 0
  | @cons s v l vs h _ ih =>
    simp only [List.map_cons, polyValue_cons]
    have := h.add (ih.smul x)
    simpa only [smul_eq_mul, mul_comm x] using this

end Verif.Poly
