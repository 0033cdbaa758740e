import Verif.Yao.FieldCircuitLemmas

/-!
# The constant adder

Its first carry is the lowest input wire, whatever the lowest bit of the constant is.
-/

namespace Verif.Yao

open Circ

variable {I J : Type} {E : I → J → Bool → Prop}

theorem spec_addConsts {xs : List I} {xs' : List J} {ps c c' z} (hx : All3 E xs xs' ps) (qs : List Bool)
    (hl : ps.length = qs.length) (hc : E c c' z) :
    CSpec E (fun r r' => ∃ ss y, All3 E r.1 r'.1 ss ∧ E r.2 r'.2 y ∧ ss.length = ps.length ∧
        val ss + 2 ^ ps.length * y.toNat = val ps + val qs + z.toNat)
      (Circ.scan (fun c (xy : I × Bool) => fullAdderConst xy.1 xy.2 c) c (xs.zip qs))
      (Circ.scan (fun c (xy : J × Bool) => fullAdderConst xy.1 xy.2 c) c' (xs'.zip qs)) := by
  refine (CSpec.scan (S := E) (C := E) (w := fun p : Bool × Bool => p.1.toNat + p.2.toNat)
    (fun c c' x a b n hc h => ?_) (hx.zip (All3.refl (l := qs))) hc).mono ?_
  · obtain ⟨h1, h2, h3⟩ := h
    rw [h2, h3]
    exact spec_fullAdderConst _ h1 hc
  · rintro r r' ⟨ss, y, hs, hy, hl', e⟩
    refine ⟨ss, y, hs, hy, ?_, ?_⟩
    · rw [hl', List.length_zip, hl, min_self]
    · rw [List.length_zip, ← hl, min_self, wval_zip_add _ _ hl] at e
      exact e

theorem spec_binAdditionConstantNoCarry {xs : List I} {xs' : List J} {p ps} (q : Bool) (qs : List Bool)
    (hx : All3 E xs xs' (p :: ps)) (hl : ps.length = qs.length) (hne : ps ≠ []) :
    CSpec E (fun r r' => ∃ ss, All3 E r r' ss ∧ ss.length = ps.length + 1 ∧
        val ss = (val (p :: ps) + val (q :: qs) + 2 * (p && !q).toNat) % 2 ^ (ps.length + 1))
      (binAdditionConstantNoCarry xs (q :: qs)) (binAdditionConstantNoCarry xs' (q :: qs)) := by
  cases hx with
  | @cons x x' p xs xs' ps h hx =>
    cases hx with
    | nil => exact absurd rfl hne
    | @cons x₂ x₂' p₂ xs xs' ps h₂ hx =>
      cases qs with
      | nil => simp at hl
      | cons q₂ qs =>
        have hX : All3 E (x₂ :: xs) (x₂' :: xs') (p₂ :: ps) := .cons h₂ hx
        have h1 := spec_halfAdderConst q h
        refine h1.bind ?_
        rintro ⟨s, c⟩ ⟨s', c'⟩ ⟨ht, hu⟩
        have := spec_addConsts (hX.take ps.length) ((q₂ :: qs).take ps.length) (by simp at hl ⊢; omega) hu
        simp only [List.length_cons, Nat.add_sub_cancel]
        rw [← take_zip, ← take_zip] at this
        rw [hx.len, hx.len']
        refine this.bind ?_
        rintro ⟨ss, c⟩ ⟨ss', c'⟩ ⟨ts, v, hts, hv, hlen, e'⟩
        have hlast := (All3.cons h hX).getLast (by simp) (by simp) (by simp)
        have key : CSpec E (fun r r' => E r r' (((p :: p₂ :: ps).getLast (by simp)) ^^
            ((q :: q₂ :: qs).getLast (by simp))))
            (negateIf ((q :: q₂ :: qs).getLast (by simp)) ((x :: x₂ :: xs).getLast (by simp)))
            (negateIf ((q :: q₂ :: qs).getLast (by simp)) ((x' :: x₂' :: xs').getLast (by simp))) := by
          cases (q :: q₂ :: qs).getLast (by simp)
          · exact CSpec.pure (by simpa using hlast)
          · exact (CSpec.gNot hlast).mono fun r r' hr => by simpa using hr
        refine key.bind fun z1 z1' hz1 => ?_
        refine (CSpec.gXor hz1 hv).bind fun l l' hl' => ?_
        refine CSpec.pure ⟨((p ^^ q) :: ts) ++ [_], (All3.cons ht hts).append (.cons hl' .nil), ?_, ?_⟩
        · simp [hlen]
        simp only [List.length_take, List.length_cons] at hlen e' hl
        have hmin : min ps.length (ps.length + 1) = ps.length := by omega
        rw [hmin] at e' hlen
        have dec : ∀ (b : Bool) (bs : List Bool), b :: bs = (b :: bs).take bs.length ++
            [(b :: bs).getLast (by simp)] := fun b bs => by
          conv_lhs => rw [← List.dropLast_append_getLast (l := b :: bs) (by simp)]
          rw [List.dropLast_eq_take]; simp
        have dv : ∀ (b : Bool) (bs : List Bool), val (b :: bs) = val ((b :: bs).take bs.length) +
            2 ^ bs.length * ((b :: bs).getLast (by simp)).toNat := fun b bs => by
          conv_lhs => rw [dec b bs, val_append]
          simp [val]
        have hql : qs.length = ps.length := by omega
        have e1 := dv p₂ ps
        have e2 := dv q₂ qs
        rw [hql] at e2
        have hpq : (p ^^ q).toNat + 2 * p.toNat = p.toNat + q.toNat + 2 * (p && !q).toNat := by
          cases p <;> cases q <;> rfl
        refine val_snoc_mod (c := v) (n := ps.length + 1) (by simp [hlen])
          (((p₂ :: ps).getLast (by simp)).toNat + ((q₂ :: qs).getLast (by simp)).toNat)
          (P := p.toNat + q.toNat + 2 * (p && !q).toNat + 2 * (val ((p₂ :: ps).take ps.length) +
            val ((q₂ :: qs).take ps.length))) ?_ ?_ ?_
        · simp only [val, pow_succ]; linarith
        · show p.toNat + 2 * val (p₂ :: ps) + (q.toNat + 2 * val (q₂ :: qs)) + _ = _
          rw [e1, e2, pow_succ]; ring
        · rw [List.getLast_cons_cons, List.getLast_cons_cons]
          generalize (p₂ :: ps).getLast _ = a
          generalize (q₂ :: qs).getLast _ = b
          cases a <;> cases b <;> cases v <;> rfl

end Verif.Yao
