import Verif.Curve.BackLemmas
import Verif.Curve.PrivacyLemmas
import Verif.Props.Demo

/-!
# Properties C54, C57–C59: conversions between shared points and shared coordinates

`Describes P x y inf` (in `Verif.Spec.Curve`) says that `x`, `y`, `inf` are the coordinates and the
infinity flag of `P`.  Points and their addition are Mathlib's.  The conversions use the comparison chosen by the state's
setting and are proved for both settings; with garbled circuits (`.yao`) the field must have odd characteristic (`ho`).
-/

namespace Verif.Props

open PartyID Rep3.Curve
open Rep3 hiding isZero promoteToTrivialShare

variable {R M : Type} {p w : Nat} [Fact p.Prime] {a b : ZMod p} {ty : A2BType}
variable {st : PartyID → Rep3State R} {x : PartyID → Share (Pt a b)} {P G : Pt a b}
variable [Sample R (ZMod p)] [Codec M (List (ZMod p))] [Sample R (BitVec w)] [UintCodec M w]
variable [Yao.YaoRng R] [Yao.YaoNet M]

theorem forall₂_mem {α β : Type} {S : α → β → Prop} {l : List α} {m : List β} (h : List.Forall₂ S l m) :
    List.Forall₂ (fun x y => S x y ∧ y ∈ m) l m := by
  induction h with
  | nil => exact .nil
  | cons h _ ih => exact .cons ⟨h, by simp⟩ (ih.imp fun _ _ h => ⟨h.1, by simp [h.2]⟩)

/-- Coordinates of the two halves give a description of their sum. -/
theorem describes_sum {S Q : Pt a b} (hS : S ≠ 0) (hQ : Q ≠ 0) (hne : S ≠ Q) :
    Describes (S + Q) (addFormula (coordX S) (coordY S) (coordX Q) (coordY Q)).1
      (addFormula (coordX S) (coordY S) (coordX Q) (coordY Q)).2.1
      (addFormula (coordX S) (coordY S) (coordX Q) (coordY Q)).2.2 := by
  obtain ⟨h1, h2⟩ := addFormula_spec hS hQ hne
  by_cases h : S + Q = 0
  · exact Or.inr ⟨h, by rw [h2, if_pos h]⟩
  · exact Or.inl ⟨h, by rw [h2, if_neg h], h1 h⟩

/-! ## C57 -/

/-- C57: a shared point is converted to shares of its coordinates and its infinity flag. The components of
the sharing must not be zero, and the sum of the first two must be neither zero nor equal to the third.
All parties fail alike, and only if the random value that blinds the inversion is zero. -/
theorem C57_point_to_coordinates (hw : modBits p + 2 ≤ w) (ho : ty = .yao → p % 2 = 1) (hx : IsShare x P)
    (hnz : ∀ i, (x i).a ≠ 0) (h0 : (x ID0).a + (x ID1).a ≠ 0) (h1 : (x ID0).a + (x ID1).a ≠ (x ID2).a)
    (hst : Corr ty st) :
    EnsuresE (M := M) (fun i => pointShareToFieldshares w (x i)) st (fun r =>
      ((∃ e, ∀ i, r i = .error (.err e)) ∧
        Ensures (M := M) (fun i => pre (x i) >>= fun v => diffOrOne w v.1 v.2.2.1) st
          (fun _ s => randValue (ZMod p) s = 0)) ∨
      ∃ (v : PartyID → Share (ZMod p) × Share (ZMod p) × Share (ZMod p)) (st' : PartyID → Rep3State R),
        (∀ i, r i = .ok (v i, st' i)) ∧ Corr ty st' ∧ ∃ X Y Z, Describes P X Y Z ∧
        IsShare (fun i => (v i).1) X ∧ IsShare (fun i => (v i).2.1) Y ∧ IsShare (fun i => (v i).2.2) Z) := by
  refine ((spec_toFields hw ho hx hnz hst).mono ?_).ensures
  rintro r (⟨e, he, h⟩ | ⟨v, st', hv, h2, h3, h4, h5⟩)
  · exact Or.inl ⟨⟨e, he⟩, h.ensures⟩
  · refine Or.inr ⟨v, st', hv, h5, _, _, _, ?_, h2, h3, h4⟩
    have := describes_sum h0 (hnz ID2) h1
    rwa [hx.2] at this

/-- C57: the zero test. The result is an XOR sharing of a bit. -/
theorem C57_is_zero (hw : modBits p + 2 ≤ w) (ho : ty = .yao → p % 2 = 1) (hx : IsShare x P)
    (hnz : ∀ i, (x i).a ≠ 0) (h0 : (x ID0).a + (x ID1).a ≠ 0) (h1 : (x ID0).a + (x ID1).a ≠ (x ID2).a)
    (hst : Corr ty st) :
    Ensures (M := M) (fun i => isZero w (x i)) st (fun r st' =>
      (∀ i, (r i).2 = (r i.prev).1) ∧ ((r ID0).1 ^^ (r ID1).1 ^^ (r ID2).1) = decide (P = 0) ∧
      Corr ty st') := by
  refine ((spec_isZero hw ho hx hnz hst).mono ?_).ensures
  rintro r st' ⟨h2, h3, h4⟩
  refine ⟨h2, ?_, h4⟩
  rw [h3, ← hx.2]
  obtain ⟨x₁, y₁, e1, -⟩ := exists_coords h0
  obtain ⟨x₂, y₂, e2, -⟩ := exists_coords (hnz ID2)
  rw [e1.coord.1, e2.coord.1]
  exact decide_eq_decide.2 (x_eq_iff e1 e2 h1)

/-- C57: a party one of whose components is the point at infinity panics. -/
theorem C57_zero_component (i : PartyID) (s : Rep3State R) (y : Share (Pt a b)) (h : y.a = 0 ∨ y.b = 0) :
    (pointShareToFieldshares w y : Rep3M R M _) i s = .fail (.panic "This fails if one share is zero") ∧
    (isZero w y : Rep3M R M _) i s = .fail (.panic "This fails if one share is zero") := by
  simp [pointShareToFieldshares, isZero, pre, h]

section Many

variable [SampleVec R (ZMod p)] {l : List ((PartyID → Share (Pt a b)) × Pt a b)}

/-- What is asked of a sharing that is converted. -/
def General (x : PartyID → Share (Pt a b)) : Prop :=
  (∀ i, (x i).a ≠ 0) ∧ (x ID0).a + (x ID1).a ≠ 0 ∧ (x ID0).a + (x ID1).a ≠ (x ID2).a

/-- C57: vectors of points. -/
theorem C57_point_to_coordinates_many (hw : modBits p + 2 ≤ w) (hl : ∀ x ∈ l, IsShare x.1 x.2)
    (hg : ∀ x ∈ l, General x.1) (hst : Corr ty st) :
    EnsuresE (M := M) (fun i => pointShareToFieldsharesMany w (l.map fun x => x.1 i)) st (fun r =>
      ((∃ e, ∀ i, r i = .error (.err e)) ∧
        Ensures (M := M) (fun i => preMany (l.map fun x => x.1 i) >>= fun v => diffOrOneMany w v.1 v.2.2.1) st
          (fun _ s => 0 ∈ randValues (ZMod p) l.length s)) ∨
      ∃ (v : PartyID → List (Share (ZMod p)) × List (Share (ZMod p)) × List (Share (ZMod p))) (st' : PartyID → Rep3State R),
        (∀ i, r i = .ok (v i, st' i)) ∧ Corr ty st' ∧ ∃ cs : List (ZMod p × ZMod p × ZMod p),
        List.Forall₂ (fun x c => Describes x.2 c.1 c.2.1 c.2.2) l cs ∧
        IsShares (fun i => (v i).1) (cs.map fun c => c.1) ∧
        IsShares (fun i => (v i).2.1) (cs.map fun c => c.2.1) ∧
        IsShares (fun i => (v i).2.2) (cs.map fun c => c.2.2)) := by
  have := spec_toFieldsMany (M := M) (l := l.map Prod.fst) hw
    (by simp only [List.mem_map]; rintro _ ⟨x, hx, rfl⟩; exact ⟨_, hl x hx⟩)
    (by simp only [List.mem_map]; rintro _ ⟨x, hx, rfl⟩; exact (hg x hx).1) hst
  simp only [List.map_map, Function.comp_def, List.length_map] at this
  refine (this.mono ?_).ensures
  rintro r (⟨e, he, h⟩ | ⟨v, st', hv, h2, h3, h4, h5⟩)
  · exact Or.inl ⟨⟨e, he⟩, h.ensures⟩
  · refine Or.inr ⟨v, st', hv, h5, l.map fun x => addFormula (halves x.1).1.1 (halves x.1).1.2
      (halves x.1).2.1 (halves x.1).2.2, ?_, ?_, ?_, ?_⟩
    · rw [List.forall₂_map_right_iff, List.forall₂_same]
      intro x hx
      have := describes_sum (hg x hx).2.1 ((hg x hx).1 ID2) (hg x hx).2.2
      rwa [(hl x hx).2] at this
    · simpa [List.map_map, Function.comp_def] using h2
    · simpa [List.map_map, Function.comp_def] using h3
    · simpa [List.map_map, Function.comp_def] using h4

/-- C57: the zero test on vectors. -/
theorem C57_is_zero_many (hw : modBits p + 2 ≤ w) (hl : ∀ x ∈ l, IsShare x.1 x.2)
    (hg : ∀ x ∈ l, General x.1) (hst : Corr ty st) :
    Ensures (M := M) (fun i => isZeroMany w (l.map fun x => x.1 i)) st (fun r st' =>
      (∃ rs : List (PartyID → Bool × Bool), (r = fun i => rs.map (· i)) ∧
        List.Forall₂ (fun (r : PartyID → Bool × Bool) x => (∀ i, (r i).2 = (r i.prev).1) ∧
          ((r ID0).1 ^^ (r ID1).1 ^^ (r ID2).1) = decide (x.2 = 0)) rs l) ∧ Corr ty st') := by
  have := spec_isZeroMany (M := M) (l := l.map Prod.fst) hw
    (by simp only [List.mem_map]; rintro _ ⟨x, hx, rfl⟩; exact ⟨_, hl x hx⟩)
    (by simp only [List.mem_map]; rintro _ ⟨x, hx, rfl⟩; exact (hg x hx).1) hst
  simp only [List.map_map, Function.comp_def] at this
  refine (this.mono ?_).ensures
  rintro r st' ⟨⟨rs, hr, h⟩, h'⟩
  refine ⟨⟨rs, hr, ?_⟩, h'⟩
  rw [List.forall₂_map_right_iff] at h
  refine (forall₂_mem h).imp ?_
  rintro r x ⟨⟨h2, h3⟩, hx⟩
  refine ⟨h2, ?_⟩
  rw [h3, ← (hl x hx).2]
  obtain ⟨x₁, y₁, e1, -⟩ := exists_coords (hg x hx).2.1
  obtain ⟨x₂, y₂, e2, -⟩ := exists_coords ((hg x hx).1 ID2)
  rw [e1.coord.1, e2.coord.1]
  exact decide_eq_decide.2 (x_eq_iff e1 e2 (hg x hx).2.2)

end Many

/-! ## C58 -/

section Back

variable [Sample R (Pt a b)] {X Y Z : PartyID → Share (ZMod p)} {u v z : ZMod p}

/-- C58: shared coordinates and a shared infinity flag are converted to a sharing of the point, unless the
random point that blinds the conversion is zero or has the same first coordinate. All parties fail alike,
and only if the random value that blinds the inversion is zero. -/
theorem C58_coordinates_to_point (hw : modBits p + 2 ≤ w) (ho : ty = .yao → p % 2 = 1) (hX : IsShare X u) (hY : IsShare Y v)
    (hZ : IsShare Z z) (hP : Describes P u v z)
    (hK : ∃ kx ky, HasCoords (blindPoint a b st) kx ky ∧ kx ≠ u) (hst : Corr ty st) :
    EnsuresE (M := M) (fun i => fieldsharesToPointshare w (X i) (Y i) (Z i)) st (fun r =>
      ((∃ e, ∀ i, r i = .error (.err e)) ∧
        Ensures (M := M) (fun i => pointMask (a := a) (b := b) >>= fun m => diffOrOne w (X i) m.1.1) st
          (fun _ s => randValue (ZMod p) s = 0)) ∨
      ∃ v st', (∀ i, r i = .ok (v i, st' i)) ∧ IsShare v P ∧ Corr ty st') := by
  obtain ⟨kx, ky, hk, hne⟩ := hK
  have hP' : (z = 0 ∧ HasCoords P u v) ∨ (z = 1 ∧ P = 0) :=
    hP.elim (fun h => Or.inl h.2) (fun h => Or.inr ⟨h.2, h.1⟩)
  refine ((spec_toPoint hw ho hX hY hZ hP' (hasCoords_ne_zero hk) (by rw [hk.coord.1]; exact hne) hst).mono
    ?_).ensures
  rintro r (⟨e, he, h⟩ | h)
  · exact Or.inl ⟨⟨e, he⟩, h.ensures⟩
  · exact Or.inr h

variable [SampleVec R (ZMod p)] [Codec M (List (List (ZMod p)))] {X Y Z : PartyID → List (Share (ZMod p))}
  {vs : List (Pt a b × ZMod p × ZMod p × ZMod p)}

/-- C58: vectors. -/
theorem C58_coordinates_to_point_many (hw : modBits p + 2 ≤ w)
    (hX : IsShares X (vs.map fun v => v.2.1)) (hY : IsShares Y (vs.map fun v => v.2.2.1))
    (hZ : IsShares Z (vs.map fun v => v.2.2.2)) (hP : ∀ v ∈ vs, Describes v.1 v.2.1 v.2.2.1 v.2.2.2)
    (hK : List.Forall₂ (fun v K => ∃ kx ky, HasCoords K kx ky ∧ kx ≠ v.2.1) vs
      (blindPoints a b vs.length st)) (hst : Corr ty st) :
    EnsuresE (M := M) (fun i => fieldsharesToPointshareMany w (X i) (Y i) (Z i)) st (fun r =>
      ((∃ e, ∀ i, r i = .error (.err e)) ∧
        Ensures (M := M) (fun i => pointMaskMany (a := a) (b := b) (X i).length >>= fun m =>
            diffOrOneMany w (X i) m.1.1) st
          (fun _ s => 0 ∈ randValues (ZMod p) vs.length s)) ∨
      ∃ v st', (∀ i, r i = .ok (v i, st' i)) ∧ IsShares v (vs.map Prod.fst) ∧ Corr ty st') := by
  refine ((spec_toPointMany hw hX hY hZ ?_ ?_ hst).mono ?_).ensures
  · exact fun v hv => (hP v hv).elim (fun h => Or.inl h.2) (fun h => Or.inr ⟨h.2, h.1⟩)
  · intro u hu
    obtain ⟨kx, ky, hk, hne⟩ := (List.forall₂_iff_zip.1 hK).2 hu
    exact ⟨hasCoords_ne_zero hk, by rw [hk.coord.1]; exact hne⟩
  rintro r (⟨e, he, h⟩ | h)
  · exact Or.inl ⟨⟨e, he⟩, h.ensures⟩
  · exact Or.inr h

end Back

/-! ## C54 -/

section Promote

open Rep3.Point (promoteToTrivialShare)

theorem general_promote (hG : G ≠ 0) (hG2 : G + G ≠ 0) (h1 : P ≠ G) (h2 : P ≠ G + G) :
    General fun i => promoteToTrivialShare G i P := by
  by_cases h0 : P = 0
  · subst h0
    refine ⟨?_, ?_, ?_⟩
    · intro i
      cases i <;> simp only [promoteToTrivialShare, if_true]
      · exact hG
      · intro h; exact hG2 (by rw [← neg_eq_zero, ← h]; abel)
      · exact hG
    · simp only [promoteToTrivialShare, if_true]
      intro h; exact hG (by rw [← neg_eq_zero, ← h]; abel)
    · simp only [promoteToTrivialShare, if_true]
      intro h
      refine hG2 ?_
      nth_rewrite 1 [← h]; abel
  · refine ⟨?_, ?_, ?_⟩
    · intro i
      cases i <;> simp only [promoteToTrivialShare, h0, if_false]
      · exact h0
      · exact neg_ne_zero.2 hG
      · exact hG
    · simp only [promoteToTrivialShare, h0, if_false]
      rw [← sub_eq_add_neg, sub_ne_zero]; exact h1
    · simp only [promoteToTrivialShare, h0, if_false]
      rw [← sub_eq_add_neg, Ne, sub_eq_iff_eq_add]; exact h2

/-- C54, the part that holds: a promoted public point is converted correctly unless it is the generator or
twice the generator. (Twice the generator must not be zero; it never is in a group of odd order.) -/
theorem C54_promoted_partial (hw : modBits p + 2 ≤ w) (ho : ty = .yao → p % 2 = 1) (hG : G ≠ 0) (hG2 : G + G ≠ 0) (h1 : P ≠ G)
    (h2 : P ≠ G + G) (hst : Corr ty st) :
    EnsuresE (M := M) (fun i => pointShareToFieldshares w (promoteToTrivialShare G i P)) st (fun r =>
      ((∃ e, ∀ i, r i = .error (.err e)) ∧
        Ensures (M := M) (fun i => pre (promoteToTrivialShare G i P) >>= fun v => diffOrOne w v.1 v.2.2.1) st
          (fun _ s => randValue (ZMod p) s = 0)) ∨
      ∃ (v : PartyID → Share (ZMod p) × Share (ZMod p) × Share (ZMod p)) (st' : PartyID → Rep3State R),
        (∀ i, r i = .ok (v i, st' i)) ∧ Corr ty st' ∧ ∃ X Y Z, Describes P X Y Z ∧
        IsShare (fun i => (v i).1) X ∧ IsShare (fun i => (v i).2.1) Y ∧ IsShare (fun i => (v i).2.2) Z) ∧
    Ensures (M := M) (fun i => isZero w (promoteToTrivialShare G i P)) st (fun r st' =>
      (∀ i, (r i).2 = (r i.prev).1) ∧ ((r ID0).1 ^^ (r ID1).1 ^^ (r ID2).1) = decide (P = 0) ∧
      Corr ty st') := by
  have hg := general_promote hG hG2 h1 h2
  exact ⟨C57_point_to_coordinates hw ho (Point.promote_share G P) hg.1 hg.2.1 hg.2.2 hst,
    C57_is_zero hw ho (Point.promote_share G P) hg.1 hg.2.1 hg.2.2 hst⟩

/-- C54 is false for twice the generator: it is taken for the point at infinity, by the zero test and (when
the blinding value is not zero) by the conversion. -/
theorem C54_false_twice_generator (hw : modBits p + 2 ≤ w) (ho : ty = .yao → p % 2 = 1) (hG : G ≠ 0) (hG2 : G + G ≠ 0)
    (hst : Corr ty st) :
    Ensures (M := M) (fun i => isZero w (promoteToTrivialShare G i (G + G))) st (fun r _ =>
      ((r ID0).1 ^^ (r ID1).1 ^^ (r ID2).1) = true) ∧
    EnsuresE (M := M) (fun i => pointShareToFieldshares w (promoteToTrivialShare G i (G + G))) st (fun r =>
      (∃ e, ∀ i, r i = .error (.err e)) ∨
      ∃ (v : PartyID → Share (ZMod p) × Share (ZMod p) × Share (ZMod p)) (st' : PartyID → Rep3State R),
        (∀ i, r i = .ok (v i, st' i)) ∧ IsShare (fun i => (v i).2.2) 1) := by
  have hnz : ∀ i, (promoteToTrivialShare G i (G + G)).a ≠ 0 := by
    intro i
    cases i <;> simp only [promoteToTrivialShare, hG2, if_false]
    · exact hG2
    · exact neg_ne_zero.2 hG
    · exact hG
  have hx := Point.promote_share G (G + G)
  have e : (promoteToTrivialShare G ID0 (G + G)).a + (promoteToTrivialShare G ID1 (G + G)).a =
      (promoteToTrivialShare G ID2 (G + G)).a := by
    simp only [promoteToTrivialShare, hG2, if_false]; abel
  refine ⟨((spec_isZero hw ho hx hnz hst).mono ?_).ensures, ((spec_toFields hw ho hx hnz hst).mono ?_).ensures⟩
  · rintro r st' ⟨-, h, -⟩
    rw [h, e]; simp
  · rintro r (⟨e, he, -⟩ | ⟨v, st', hv, -, -, h, -⟩)
    · exact Or.inl ⟨e, he⟩
    · refine Or.inr ⟨v, st', hv, ?_⟩
      rw [e, addFormula_self] at h
      exact h

/-- C54 is false for the generator, on curves whose generator has coordinates with `gx ≠ 0` and
`gy² ≠ 2 gx³` (BN254: `(1, 2)`): the conversion does not describe it. -/
theorem C54_false_generator (hw : modBits p + 2 ≤ w) (ho : ty = .yao → p % 2 = 1) {gx gy : ZMod p} (hG : HasCoords G gx gy)
    (h0 : gx ≠ 0) (hne : gy ^ 2 ≠ 2 * gx ^ 3) (hst : Corr ty st) :
    EnsuresE (M := M) (fun i => pointShareToFieldshares w (promoteToTrivialShare G i G)) st (fun r =>
      (∃ e, ∀ i, r i = .error (.err e)) ∨
      ∃ (v : PartyID → Share (ZMod p) × Share (ZMod p) × Share (ZMod p)) (st' : PartyID → Rep3State R),
        (∀ i, r i = .ok (v i, st' i)) ∧ ∃ X Y Z, ¬ Describes G X Y Z ∧
        IsShare (fun i => (v i).1) X ∧ IsShare (fun i => (v i).2.1) Y ∧ IsShare (fun i => (v i).2.2) Z) := by
  have hG0 := hasCoords_ne_zero hG
  have hnz : ∀ i, (promoteToTrivialShare G i G).a ≠ 0 := by
    intro i
    cases i <;> simp only [promoteToTrivialShare, hG0, if_false]
    · exact hG0
    · exact neg_ne_zero.2 hG0
    · exact hG0
  refine ((spec_toFields hw ho (Point.promote_share G G) hnz hst).mono ?_).ensures
  rintro r (⟨e, he, -⟩ | ⟨v, st', hv, h1, h2, h3, -⟩)
  · exact Or.inl ⟨e, he⟩
  · refine Or.inr ⟨v, st', hv, _, _, _, ?_, h1, h2, h3⟩
    have e : (promoteToTrivialShare G ID0 G).a + (promoteToTrivialShare G ID1 G).a = 0 := by
      simp only [promoteToTrivialShare, hG0, if_false]; abel
    have e2 : (promoteToTrivialShare G ID2 G).a = G := by
      simp only [promoteToTrivialShare, hG0, if_false]
    rw [e, e2, hG.coord.1, hG.coord.2]
    have ez : coordX (0 : Pt a b) = 0 ∧ coordY (0 : Pt a b) = 0 := ⟨rfl, rfl⟩
    rw [ez.1, ez.2]
    rintro (⟨-, -, h⟩ | ⟨h, -⟩)
    · have := (h.inj hG).1
      simp only [addFormula, h0.symm, if_false] at this
      refine hne ?_
      field_simp at this
      linear_combination this
    · exact hG0 h

end Promote

/-! ## C59 -/

section Privacy

variable [SampleVec R (ZMod p)]

/-- C59 is false for the conversion of a vector of points: the same mask hides every point, so the first
message party 2 receives (from party 1) contains, for any two positions of the vector, two numbers whose
difference is the difference of the first coordinates of `x₀ + x₁` at the two positions. -/
theorem C59_false_batch {l : List (PartyID → Share (Pt a b))} (hw : modBits p + 2 ≤ w)
    (hl : ∀ x ∈ l, ∃ P, IsShare x P) (hnz : ∀ x ∈ l, ∀ i, (x i).a ≠ 0) (hst : Corr ty st) :
    AllRuns (M := M) (fun i => (pointShareToFieldsharesMany w (l.map (· i)) : Rep3M R M _) i (st i))
      (fun _ view => ∃ msg : List (ZMod p), (view ID2).head? = some (ID1, Codec.enc msg) ∧
        ∀ (j k : Nat) (x y : PartyID → Share (Pt a b)) (u v u' v' : ZMod p), l[j]? = some x → l[k]? = some y →
          HasCoords ((x ID0).a + (x ID1).a) u u' → HasCoords ((y ID0).a + (y ID1).a) v v' →
          ∃ c d, msg[j]? = some c ∧ msg[k]? = some d ∧ c - d = u - v) := by
  obtain ⟨rx, ry, v, hrun⟩ := runs_preMany (M := M) hl hnz hst
  have hE := spec_toFieldsMany (M := M) hw hl hnz hst
  obtain ⟨v', s1, ⟨h1, h2, h3, h4, hst1⟩, hr2⟩ := (spec_preMany (M := M) hl hnz hst).exact
  obtain ⟨v2, l2, hr2, e1, e2⟩ := hr2
  obtain ⟨hvv, -⟩ := Runs.unique hrun hr2
  have hv : ∀ i, v i = (v' i, s1 i) := by
    intro i
    have := congrFun hvv i
    rw [Except.ok.injEq] at this
    rw [this, ← congrFun e1 i, ← congrFun e2 i]
  obtain ⟨r, lg, hr, -⟩ := spec_pointAdditionMany (M := M) (vs := l.map halves) hw
    (by simpa [List.map_map, Function.comp_def, halves] using h1)
    (by simpa [List.map_map, Function.comp_def, halves] using h2)
    (by simpa [List.map_map, Function.comp_def, halves] using h3)
    (by simpa [List.map_map, Function.comp_def, halves] using h4) hst1
  have hfull := Runs.bind_ok hrun (k := fun i z => (pointAdditionMany w z.1.1 z.1.2.1 z.1.2.2.1 z.1.2.2.2 :
    Rep3M R M _) i z.2) (s := r) (l' := lg) (by simp only [hv]; exact hr)
  refine Runs.allRuns (Runs.congr (fun i => ?_) hfull) ?_
  · rfl
  · refine ⟨_, rfl, ?_⟩
    intro j k x y u v u' v' hj hk hu hv
    have hx : ∀ {x : PartyID → Share (Pt a b)} {j : Nat}, l[j]? = some x →
        ∃ P, IsShare x P ∧ j < l.length := by
      intro x j hj
      obtain ⟨P, hP⟩ := hl x (List.mem_of_getElem? hj)
      exact ⟨P, hP, (List.getElem?_eq_some_iff.1 hj).1⟩
    obtain ⟨P, hP, hjl⟩ := hx hj
    obtain ⟨Q, hQ, hkl⟩ := hx hk
    have e : ∀ {x : PartyID → Share (Pt a b)} {P : Pt a b} {u u' : ZMod p}, IsShare x P →
        HasCoords ((x ID0).a + (x ID1).a) u u' → (preOwn ID1 (x ID1) (rx ID1) (ry ID1)).1 = rx ID1 + u := by
      intro x P u u' hP hu
      rw [preOwn_eq, if_pos rfl, hP.b1, add_comm (x ID1).a, hu.coord.1]
    refine ⟨rx ID1 + u, rx ID1 + v, ?_, ?_, by ring⟩
    · rw [List.getElem?_append_left (by simpa using hjl), List.getElem?_map, ID2_prev, hj, Option.map_some,
        e hP hu]
    · rw [List.getElem?_append_left (by simpa using hkl), List.getElem?_map, ID2_prev, hk, Option.map_some,
        e hQ hv]

end Privacy

attribute [local instance] tapeSample

omit [Yao.YaoNet M] in
/-- C59, the part that holds: in the conversion of a single point the first message to party 2 is hidden by
the randomness that party 2 does not know. Whatever the sharing is, for every possible message there is
exactly one pair of values of party 0's generator that produces it. Missing: the later rounds of the
conversion (bit decomposition, products, inversion). -/
theorem C59_single_first_message_partial (hx : IsShare x P) (hnz : ∀ i, (x i).a ≠ 0)
    (tp : PartyID → List (ZMod p)) (m m' : ZMod p) :
    ∃! t : ZMod p × ZMod p, AllRuns (M := M) (fun i => (pre (x i) : Rep3M (List (ZMod p)) M _) i
        (tapeStates (fun j => if j = ID0 then [t.1, t.2] else tp j) i))
      (fun _ view => view ID2 = [(ID1, Codec.enc [m, m'])]) := by
  have key := runs_pre (M := M) hx hnz tp
  have hmsg : ∀ t, preMsg x tp t ID1 = [(tp ID1).headI - t.1 + coordX ((x ID0).a + (x ID1).a),
      (tp ID1).tail.headI - t.2 + coordY ((x ID0).a + (x ID1).a)] := preMsg_one hx tp
  refine ⟨((tp ID1).headI + coordX ((x ID0).a + (x ID1).a) - m,
    (tp ID1).tail.headI + coordY ((x ID0).a + (x ID1).a) - m'), ?_, ?_⟩
  · obtain ⟨v, hv⟩ := key ((tp ID1).headI + coordX ((x ID0).a + (x ID1).a) - m,
      (tp ID1).tail.headI + coordY ((x ID0).a + (x ID1).a) - m')
    refine hv.allRuns ?_
    simp only [ID2_prev, hmsg]
    congr 4 <;> [ring; (congr 1; ring)]
  · rintro t ht
    obtain ⟨v, hv⟩ := key t
    obtain ⟨r, l, hr, hl⟩ := allRuns_iff.1 ht
    obtain ⟨-, e⟩ := Runs.unique hv hr
    simp only [← e, ID2_prev, hmsg] at hl
    have := congrArg (fun z => (Codec.dec z : Option (List (ZMod p)))) (Prod.mk.inj (List.cons.inj hl).1).2
    simp only [Codec.dec_enc, Option.some.injEq, List.cons.injEq, and_true] at this
    ext
    · linear_combination -this.1
    · linear_combination -this.2

/-! ## Examples: the curve `y² = x³ + 3` over the field with seven elements -/

end Verif.Props

namespace Verif.Demo

open PartyID

/-- The points of `y² = x³ + 3` (13 points). -/
abbrev E7 := Pt (0 : F7) 3

theorem nonsing {x y : F7} (h : y ^ 2 = x ^ 3 + 3 ∧ (x ≠ 0 ∨ y ≠ 0)) : (curve (0 : F7) 3).Nonsingular x y := by
  rw [WeierstrassCurve.Affine.nonsingular_iff, WeierstrassCurve.Affine.equation_iff]
  revert x y; simp only [curve]; decide

/-- `(1, 2)`. -/
def g7 : E7 := .some 1 2 (nonsing (by decide))
/-- `(2, 2)`. -/
def h7 : E7 := .some 2 2 (nonsing (by decide))
/-- `(3, 3)`. -/
def k7 : E7 := .some 3 3 (nonsing (by decide))

theorem gh7 : HasCoords (g7 + h7) 4 5 := by
  have h := Rep3.Curve.add_coords (P := g7) (Q := h7) ⟨nonsing (by decide), rfl⟩ ⟨nonsing (by decide), rfl⟩
    (by decide)
  have e : ((2 : F7) - 2) * (2 - 1)⁻¹ = 0 := by simp
  rw [e] at h
  convert h using 1 <;> decide

/-- `(1, 2) + (2, 2) + (3, 3)`, shared. -/
def point7 : PartyID → Share E7 := three ⟨g7, k7⟩ ⟨h7, g7⟩ ⟨k7, h7⟩

theorem isShare_point7 : IsShare point7 (g7 + h7 + k7) := ⟨by intro i; cases i <;> rfl, rfl⟩

theorem some7 {x y : F7} {h} : (WeierstrassCurve.Affine.Point.some x y h : E7) ≠ 0 :=
  WeierstrassCurve.Affine.Point.some_ne_zero h

theorem general7 : Props.General point7 := by
  refine ⟨?_, ?_, ?_⟩
  · intro i; cases i <;> exact some7
  · exact Rep3.Curve.hasCoords_ne_zero gh7
  · intro h
    have := (gh7.inj (x' := 3) (y' := 3) (by rw [show g7 + h7 = k7 from h]; exact ⟨nonsing (by decide), rfl⟩)).1
    exact absurd this (by decide)

/-- Twice the generator is not zero. -/
theorem twice7 : g7 + g7 ≠ 0 := by
  intro h
  have : g7 = -g7 := eq_neg_of_add_eq_zero_left h
  rw [g7, WeierstrassCurve.Affine.Point.neg_some, WeierstrassCurve.Affine.Point.some.injEq] at this
  exact absurd this.2 (by simp [WeierstrassCurve.Affine.negY, curve]; decide)

theorem h7_ne : h7 ≠ g7 + g7 := by
  intro h
  have hn : HasCoords (-g7) 1 5 := ⟨nonsing (by decide), by
    rw [g7, WeierstrassCurve.Affine.Point.neg_some, WeierstrassCurve.Affine.Point.some.injEq]
    exact ⟨rfl, by simp [WeierstrassCurve.Affine.negY, curve]; decide⟩⟩
  have h1 := Rep3.Curve.add_coords (P := h7) ⟨nonsing (by decide), rfl⟩ hn (by decide)
  have e : h7 + -g7 = g7 := by rw [h]; abel
  rw [e, show ((1 : F7) - 2)⁻¹ = 6 from inv_eq_of_mul_eq_one_right (by decide)] at h1
  exact absurd (h1.inj (x' := 1) (y' := 2) ⟨nonsing (by decide), rfl⟩).1 (by decide)

instance : Sample Nat E7 := ⟨fun r => (if r = 6 then k7 else 0, r + 1)⟩

end Verif.Demo

namespace Verif.Props

open PartyID Demo

example : ∃ P, IsShare point7 P ∧ General point7 := ⟨_, isShare_point7, general7⟩
example (t : A2BType) : Ensures (M := Msg) (fun i => Rep3.Curve.isZero 8 (point7 i)) (statesOf t) (fun r st' =>
    (∀ i, (r i).2 = (r i.prev).1) ∧
    ((r ID0).1 ^^ (r ID1).1 ^^ (r ID2).1) = decide (g7 + h7 + k7 = 0) ∧ Corr t st') :=
  C57_is_zero (by decide) (fun _ => rfl) isShare_point7 general7.1 general7.2.1 general7.2.2 (corr_statesOf t)
example := C57_point_to_coordinates (M := Msg) (w := 8) (by decide) (fun _ => rfl) isShare_point7 general7.1 general7.2.1
  general7.2.2 corr_states
example := C57_point_to_coordinates_many (M := Msg) (w := 8)
  (l := [(point7, g7 + h7 + k7), (fun i => Rep3.Point.promoteToTrivialShare g7 i 0, 0)]) (by decide)
  (by simp [isShare_point7, Rep3.Point.promote_share])
  (by simp only [List.mem_cons, List.not_mem_nil, or_false]
      rintro _ (rfl | rfl)
      · exact general7
      · exact general_promote some7 twice7 some7.symm twice7.symm) corr_states
example := C57_is_zero_many (M := Msg) (w := 8)
  (l := [(point7, g7 + h7 + k7), (fun i => Rep3.Point.promoteToTrivialShare g7 i 0, 0)]) (by decide)
  (by simp [isShare_point7, Rep3.Point.promote_share])
  (by simp only [List.mem_cons, List.not_mem_nil, or_false]
      rintro _ (rfl | rfl)
      · exact general7
      · exact general_promote some7 twice7 some7.symm twice7.symm) corr_states
example := C54_promoted_partial (M := Msg) (w := 8) (P := (0 : E7)) (by decide) (fun _ => rfl) some7 twice7 some7.symm
  twice7.symm corr_states
example := C54_promoted_partial (M := Msg) (w := 8) (P := h7) (by decide) (fun _ => rfl) (G := g7) some7 twice7
  (fun h => absurd ((WeierstrassCurve.Affine.Point.some.injEq ..).mp h).1 (by decide)) h7_ne corr_states
example := C54_false_twice_generator (M := Msg) (w := 8) (G := g7) (by decide) (fun _ => rfl) some7 twice7 corr_states
example := C54_false_generator (M := Msg) (w := 8) (G := g7) (by decide) (fun _ => rfl) ⟨nonsing (by decide), rfl⟩ (by decide)
  (by decide) corr_states
example := C59_false_batch (M := Msg) (w := 8) (l := [point7, point7]) (by decide)
  (by simp only [List.mem_cons, List.not_mem_nil, or_false, or_self]
      rintro _ rfl; exact ⟨_, isShare_point7⟩)
  (by simp only [List.mem_cons, List.not_mem_nil, or_false, or_self]
      rintro _ rfl; exact general7.1) corr_states
example := C59_single_first_message_partial (M := Msg) isShare_point7 general7.1 (fun _ => [1, 2]) 3 4
/-- The blinding points of the example: `(3, 3)`, twice. -/
theorem _root_.Verif.Demo.blinds7 : Rep3.Curve.blindPoints (0 : F7) 3 2 states = [k7, k7] := by
  simp [Rep3.Curve.blindPoints, Rep3.Curve.afterKeys, Rep3.Curve.blindPoint, Rep3.Curve.keySum,
    BitComp.random3, statesOf, Sample.sample]
example := C58_coordinates_to_point (M := Msg) (w := 8) (P := g7 + h7) (st := states) (by decide) (fun _ => rfl)
  (IsShare.promote 4) (IsShare.promote 5) (IsShare.promote 0)
  (Or.inl ⟨Rep3.Curve.hasCoords_ne_zero gh7, rfl, gh7⟩)
  ⟨3, 3, by
    have : Rep3.Curve.blindPoint (0 : F7) 3 states = k7 := by
      have := blinds7
      simp only [Rep3.Curve.blindPoints, List.cons.injEq] at this
      exact this.1
    rw [this]; exact ⟨nonsing (by decide), rfl⟩, by decide⟩ corr_states
example := C58_coordinates_to_point_many (M := Msg) (w := 8) (st := states)
  (vs := [(g7 + h7, 4, 5, 0), (0, 1, 2, 1)]) (by decide)
  (Cols.cons (IsShare.promote 4) (Cols.cons (IsShare.promote 1) Cols.nil))
  (Cols.cons (IsShare.promote 5) (Cols.cons (IsShare.promote 2) Cols.nil))
  (Cols.cons (IsShare.promote 0) (Cols.cons (IsShare.promote 1) Cols.nil))
  (by simp only [List.mem_cons, List.not_mem_nil, or_false]
      rintro _ (rfl | rfl)
      · exact Or.inl ⟨Rep3.Curve.hasCoords_ne_zero gh7, rfl, gh7⟩
      · exact Or.inr ⟨rfl, rfl⟩)
  (by
    show List.Forall₂ _ _ (Rep3.Curve.blindPoints (0 : F7) 3 2 states)
    rw [blinds7]
    refine .cons ⟨3, 3, ⟨nonsing (by decide), rfl⟩, by decide⟩ (.cons ⟨3, 3, ⟨nonsing (by decide), rfl⟩, by decide⟩ .nil))
  corr_states

end Verif.Props
