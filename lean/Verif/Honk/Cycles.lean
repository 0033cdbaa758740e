import Mathlib.Algebra.Polynomial.Roots
import Mathlib.Data.List.Chain
import Mathlib.Tactic.LinearCombination
import Mathlib.Tactic.FieldSimp
import Mathlib.Tactic.Ring

/-!
# Cycles with tags, and products of linear factors
-/

namespace Verif.Honk

open Polynomial

section Cycles

variable {α N V : Type} (val : α → V) (name : α → N)

/-- The values of a cycle with the names of the places; the first place has the name of a tag. -/
def starts (t : N) : List α → List (V × N)
  | [] => []
  | e :: es => (val e, t) :: es.map fun x => (val x, name x)

/-- The values of a cycle with the names of the next places; after the last place comes a tag. -/
def ends (t : N) : List α → List (V × N)
  | [] => []
  | [e] => [(val e, t)]
  | e :: f :: es => (val e, name f) :: ends t (f :: es)

theorem ends_const (t : N) (x : V) : ∀ (e : α) (es : List α), (∀ y ∈ e :: es, val y = x) →
    ends val name t (e :: es) = es.map (fun y => (val y, name y)) ++ [(x, t)]
  | e, [], h => by simp [ends, h e (by simp)]
  | e, f :: es, h => by
    rw [ends, ends_const t x f es fun y hy => h y (List.mem_cons_of_mem _ hy)]
    simp [h e (by simp), h f (by simp)]

theorem const_perm (t t' : N) (x : V) {l : List α} (hl : l ≠ []) (h : ∀ y ∈ l, val y = x) :
    (starts val name t l ++ [(x, t')]).Perm (ends val name t' l ++ [(x, t)]) := by
  obtain ⟨e, es, rfl⟩ := List.exists_cons_of_ne_nil hl
  rw [ends_const val name t' x e es h, starts, h e (by simp)]
  exact (List.perm_append_singleton _ _).symm

/-- A cycle with its tag and the image of its tag. -/
structure Cycle (α N : Type) where
  places : List α
  tag : N
  image : N

variable {val name}

theorem all_const {cs : List (Cycle α N)} (hne : ∀ c ∈ cs, c.places ≠ []) (x : Cycle α N → V)
    (h : ∀ c ∈ cs, ∀ y ∈ c.places, val y = x c) :
    (cs.flatMap (fun c => starts val name c.tag c.places) ++ cs.map fun c => (x c, c.image)).Perm
      (cs.flatMap (fun c => ends val name c.image c.places) ++ cs.map fun c => (x c, c.tag)) := by
  induction cs with
  | nil => exact List.Perm.refl _
  | cons c cs ih =>
    have h1 := const_perm val name c.tag c.image (x c) (hne c (by simp)) (h c (by simp))
    have h2 := ih (fun d hd => hne d (List.mem_cons_of_mem _ hd)) fun d hd => h d (List.mem_cons_of_mem _ hd)
    rw [← Multiset.coe_eq_coe] at h1 h2 ⊢
    simp only [List.flatMap_cons, List.map_cons, ← Multiset.coe_add, ← Multiset.cons_coe, Multiset.coe_nil,
      ← Multiset.singleton_add, add_zero] at h1 h2 ⊢
    calc _ = (↑(starts val name c.tag c.places) + ({(x c, c.image)} : Multiset (V × N))) +
          (↑(cs.flatMap fun c => starts val name c.tag c.places) + ↑(cs.map fun c => (x c, c.image))) := by ac_rfl
      _ = _ := by rw [h1, h2]; ac_rfl

/-- Constant cycles: the values with the names of the places are the values with the names of the next places if and only if
this is so for the tags. -/
theorem perm_iff_tags {cs : List (Cycle α N)} (hne : ∀ c ∈ cs, c.places ≠ []) (x : Cycle α N → V)
    (h : ∀ c ∈ cs, ∀ y ∈ c.places, val y = x c) :
    (cs.flatMap fun c => starts val name c.tag c.places).Perm (cs.flatMap fun c => ends val name c.image c.places) ↔
      (cs.map fun c => (x c, c.tag)).Perm (cs.map fun c => (x c, c.image)) := by
  have := all_const (name := name) hne x h
  rw [← Multiset.coe_eq_coe] at this ⊢
  rw [← Multiset.coe_eq_coe]
  simp only [← Multiset.coe_add] at this
  constructor
  · intro e
    rw [e] at this
    exact (add_left_cancel this).symm
  · intro e
    rw [e] at this
    exact add_right_cancel this

theorem mem_ends {t : N} {l : List α} : ∀ {a b : List α} {e f : α}, l = a ++ e :: f :: b →
    (val e, name f) ∈ ends val name t l
  | [], b, e, f, h => by rw [h, List.nil_append, ends]; exact List.mem_cons_self
  | [x], b, e, f, h => by
    rw [h, List.singleton_append, ends]; exact List.mem_cons_of_mem _ (mem_ends (a := []) rfl)
  | x :: y :: a, b, e, f, h => by
    rw [h, List.cons_append, List.cons_append, ends]
    exact List.mem_cons_of_mem _ (mem_ends (a := y :: a) rfl)

/-- If the names of the places are different from each other and from the tags, the cycles are constant. -/
theorem const_of_perm {cs : List (Cycle α N)}
    (hp : (cs.flatMap fun c => starts val name c.tag c.places).Perm (cs.flatMap fun c => ends val name c.image c.places))
    (hinj : ∀ c ∈ cs, ∀ x ∈ c.places, ∀ d ∈ cs, ∀ y ∈ d.places, name x = name y → x = y)
    (htag : ∀ c ∈ cs, ∀ x ∈ c.places, ∀ d ∈ cs, name x ≠ d.tag) {c : Cycle α N} (hc : c ∈ cs) :
    c.places.IsChain fun e f => val e = val f := by
  rw [List.isChain_iff_forall_rel_of_append_cons_cons]
  intro e f a b h
  have h1 : (val e, name f) ∈ cs.flatMap fun c => ends val name c.image c.places :=
    List.mem_flatMap.2 ⟨c, hc, mem_ends h⟩
  rw [← hp.mem_iff] at h1
  obtain ⟨d, hd, hm⟩ := List.mem_flatMap.1 h1
  have hf : f ∈ c.places := by rw [h]; simp
  cases hpl : d.places with
  | nil => rw [hpl, starts] at hm; cases hm
  | cons y ys =>
    rw [hpl, starts, List.mem_cons] at hm
    rcases hm with hm | hm
    · exact absurd (congrArg Prod.snd hm) (htag c hc f hf d hd)
    · obtain ⟨g, hg, hgv⟩ := List.mem_map.1 hm
      have hgd : g ∈ d.places := by rw [hpl]; exact List.mem_cons_of_mem _ hg
      have := hinj d hd g hgd c hc f hf (congrArg Prod.snd hgv)
      rw [this] at hgv
      exact (congrArg Prod.fst hgv).symm

theorem eq_head_of_chain {l : List α} (h : l.IsChain fun e f => val e = val f) {e : α} {es : List α} (he : l = e :: es) :
    ∀ y ∈ l, val y = val e := by
  subst he
  induction es generalizing e with
  | nil => intro y hy; rw [List.mem_singleton] at hy; rw [hy]
  | cons f es ih =>
    rw [List.isChain_cons_cons] at h
    intro y hy
    rcases List.mem_cons.1 hy with rfl | hy
    · rfl
    · rw [ih h.2 y hy, h.1]

end Cycles

section Products

variable {F : Type} [Field F] [DecidableEq F]

/-- The product of the factors of a list of values with names. -/
def factors (β γ : F) (l : List (F × F)) : F := (l.map fun x => x.1 + x.2 * β + γ).prod

/-- The values of the first challenge for which two different pairs look the same. -/
def badβ (l r : List (F × F)) : Finset F :=
  ((l ++ r).toFinset ×ˢ (l ++ r).toFinset).image fun x => (x.2.1 - x.1.1) / (x.1.2 - x.2.2)

theorem badβ_card (l r : List (F × F)) : (badβ l r).card ≤ (l.length + r.length) ^ 2 := by
  refine Finset.card_image_le.trans ?_
  rw [Finset.card_product, sq]
  have : (l ++ r).toFinset.card ≤ l.length + r.length := (List.toFinset_card_le _).trans (by simp)
  exact Nat.mul_le_mul this this

/-- The difference of the products as a polynomial in the second challenge. -/
noncomputable def gammaDiff (β : F) (l r : List (F × F)) : F[X] :=
  (l.map fun x => X + C (x.1 + x.2 * β)).prod - (r.map fun x => X + C (x.1 + x.2 * β)).prod

/-- The values of the second challenge for which the products of different lists agree. -/
noncomputable def badγ (β : F) (l r : List (F × F)) : Finset F := (gammaDiff β l r).roots.toFinset

theorem natDegree_linear_prod (β : F) (l : List (F × F)) :
    ((l.map fun x => X + C (x.1 + x.2 * β)).prod : F[X]).natDegree ≤ l.length := by
  refine (natDegree_list_prod_le _).trans ?_
  rw [List.map_map]
  refine (List.sum_le_card_nsmul _ 1 ?_).trans (by simp)
  intro x hx
  obtain ⟨y, -, rfl⟩ := List.mem_map.1 hx
  exact (natDegree_X_add_C _).le

theorem badγ_card (β : F) (l r : List (F × F)) : (badγ β l r).card ≤ max l.length r.length := by
  refine (Multiset.toFinset_card_le _).trans ((card_roots' _).trans ?_)
  exact (natDegree_sub_le _ _).trans (max_le_max (natDegree_linear_prod β l) (natDegree_linear_prod β r))

/-- Away from the exceptional challenges, equal products mean equal lists up to order. -/
theorem perm_of_factors {l r : List (F × F)} {β γ : F} (h : factors β γ l = factors β γ r) (hβ : β ∉ badβ l r)
    (hγ : γ ∉ badγ β l r) : l.Perm r := by
  have e : (gammaDiff β l r).eval γ = 0 := by
    rw [gammaDiff, eval_sub, eval_list_prod, eval_list_prod, List.map_map, List.map_map, sub_eq_zero]
    simp only [factors] at h
    convert h using 3 <;> (funext x; simp; ring)
  have hz : gammaDiff β l r = 0 := by
    by_contra hne
    exact hγ (Multiset.mem_toFinset.2 ((mem_roots hne).2 e))
  rw [gammaDiff, sub_eq_zero] at hz
  have hroots := congrArg Polynomial.roots hz
  have key : ∀ s : List (F × F), ((s.map fun x => X + C (x.1 + x.2 * β)).prod : F[X]).roots =
      ((s.map fun x => -(x.1 + x.2 * β)) : Multiset F) := by
    intro s
    have := roots_multiset_prod_X_sub_C ((s.map fun x => -(x.1 + x.2 * β) : List F) : Multiset F)
    rw [Multiset.map_coe, List.map_map, Multiset.prod_coe] at this
    rw [← this]
    congr 3
    funext x
    rw [Function.comp_apply, C_neg, sub_neg_eq_add]
  rw [key, key, Multiset.coe_eq_coe] at hroots
  have hinj : Set.InjOn (fun x : F × F => -(x.1 + x.2 * β)) {x | x ∈ l ++ r} := by
    intro x hx y hy hxy
    have hxy : x.1 + x.2 * β = y.1 + y.2 * β := neg_injective hxy
    have hn : x.2 = y.2 := by
      by_contra hne
      refine hβ (Finset.mem_image.2 ⟨(x, y), Finset.mem_product.2 ⟨List.mem_toFinset.2 hx, List.mem_toFinset.2 hy⟩, ?_⟩)
      rw [div_eq_iff (sub_ne_zero.2 hne)]
      linear_combination -hxy
    refine Prod.ext ?_ hn
    rw [hn] at hxy
    exact add_right_cancel hxy
  have hinv := hinj.leftInvOn_invFunOn
  have hp := hroots.map (Function.invFunOn (fun x : F × F => -(x.1 + x.2 * β)) {x | x ∈ l ++ r})
  rw [List.map_map, List.map_map] at hp
  have hid : ∀ s : List (F × F), (∀ x ∈ s, x ∈ l ++ r) → s.map
      (Function.invFunOn (fun x : F × F => -(x.1 + x.2 * β)) {x | x ∈ l ++ r} ∘ fun x => -(x.1 + x.2 * β)) = s := by
    intro s hs
    conv_rhs => rw [← List.map_id s]
    exact List.map_congr_left fun x hx => hinv (hs x hx)
  rwa [hid l fun x hx => List.mem_append_left _ hx, hid r fun x hx => List.mem_append_right _ hx] at hp

end Products
end Verif.Honk
