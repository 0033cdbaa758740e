import Verif.CoNoir.AcvmSim
import Verif.CircomVm.Rep3Lemmas
import Verif.Shamir.ArithLemmas

/-!
# The Shamir driver of the solver corresponds to the plain one

For programs without tables and bit operations whose products have coefficient one.
-/

namespace Verif.Acvm

open Shamir (ShamirState ShamirM ShCorr)
open CircomVm (VmVal MonadRel RelW bind_ok ok_inj specE_ok)

variable {R M : Type} {n p t : Nat} {bad : Prop} [Fact p.Prime]

/-- Whenever the plain computation succeeds, the parties get corresponding results. -/
def shamirRel (n : Nat) (R M : Type) (p t : Nat) [Fact p.Prime] (bad : Prop) :
    MonadRel (Fin n) (ShamirM n R (ZMod p) M) (Except Err) where
  Rel Q q r := ∀ b, r = .ok b → ∀ st, ShCorr t st → SpecE q st (AllOrNone bad fun v s => Q v b ∧ ShCorr t s)
  pure h b hb st hst := by
    obtain rfl := ok_inj.mp hb
    exact specE_ok (Spec.pure ⟨h, hst⟩)
  bind h h' b hb st hst := by
    obtain ⟨a, ha, hb⟩ := bind_ok hb
    refine SpecE.bindAll (h a ha st hst) ?_ (fun e h => Or.inl ⟨e, fun _ => rfl, h⟩)
    rintro v s ⟨hv, hs⟩
    exact h' v a hv b hb s hs
  mono h hq b hb st hst := by
    refine (h b hb st hst).mono fun r hr => ?_
    rcases hr with hr | ⟨a, s, h1, h2, h3⟩
    · exact .inl hr
    · exact .inr ⟨a, s, h1, hq _ _ h2, h3⟩

theorem shamirRel_spec {α β : Type} {Q : (Fin n → α) → β → Prop} {q : Fin n → ShamirM n R (ZMod p) M α} {r : Except Err β}
    (h : ∀ b, r = .ok b → ∀ st, ShCorr t st → Spec q st fun v s => Q v b ∧ ShCorr t s) :
    (shamirRel n R M p t bad).Rel Q q r := fun b hb st hst => specE_ok (h b hb st hst)

theorem pub_of {ι A : Type} {Sh : (ι → A) → ZMod p → Prop} {v u : ZMod p} (h : v = u) :
    IsVal Sh (fun _ : ι => VmVal.pub v) u := h ▸ .inl rfl

theorem arith_of {ι A : Type} {Sh : (ι → A) → ZMod p → Prop} {s : ι → A} {v u : ZMod p} (hs : Sh s v) (h : v = u) :
    IsVal Sh (fun i => VmVal.arith (s i)) u := h ▸ .inr ⟨s, rfl, hs⟩

theorem isShamir_addPublic {s : Fin n → ZMod p} {v : ZMod p} (h : IsShamir (ZMod p) t s v) (c : ZMod p) :
    IsShamir (ZMod p) t (fun i => Shamir.addPublic (s i) c) (v + c) := h.add (IsShamir.const t c)

theorem isShamir_mulPublic {s : Fin n → ZMod p} {v : ZMod p} (h : IsShamir (ZMod p) t s v) (c : ZMod p) :
    IsShamir (ZMod p) t (fun i => Shamir.mulPublic (s i) c) (v * c) := by
  have := h.smul c
  simpa only [Shamir.mulPublic, smul_eq_mul, mul_comm c] using this

theorem shamir_sim [Sample R (ZMod p)] [Codec M (ZMod p)] [Codec M (List (ZMod p))] [NeZero n] :
    DriverSim (shamirRel n R M p t bad) shamir (IsShamir (ZMod p) t) (fun _ _ => False) (shamirSupport p) bad where
  zero := rfl
  ofPub := rfl
  isShared := rfl
  getShared := rfl
  getPublic := rfl
  addAssignWithPublic c x v hx := by
    refine (shamirRel n R M p t bad).pure (a := fun i => shamirAddPublic c (x i)) ?_
    rcases hx with rfl | ⟨s, rfl, hs⟩
    · exact pub_of (add_comm _ _)
    · exact arith_of (isShamir_addPublic hs c) rfl
  addAssign {x v y u} hx hy := by
    refine (shamirRel n R M p t bad).pure (a := fun i => shamirAddAssign (x i) (y i)) ?_
    rcases hx with rfl | ⟨s, rfl, hs⟩ <;> rcases hy with rfl | ⟨t, rfl, ht⟩
    · exact pub_of rfl
    · exact arith_of (isShamir_addPublic ht v) (add_comm _ _)
    · exact arith_of (isShamir_addPublic hs u) rfl
    · exact arith_of (hs.add ht) rfl
  mulWithPublic c x v hx := by
    refine (shamirRel n R M p t bad).pure (a := fun i => shamirMulPublic c (x i)) ?_
    rcases hx with rfl | ⟨s, rfl, hs⟩
    · exact pub_of (mul_comm _ _)
    · exact arith_of (isShamir_mulPublic hs c) rfl
  solveMulTerm c x v y u hc hx hy := by
    have hc : c = 1 := hc
    subst hc
    refine shamirRel_spec fun b hb st hst => ?_
    have hb : Except.ok (1 * v * u) = Except.ok b := hb
    obtain rfl := ok_inj.mp hb
    rcases hx with rfl | ⟨s, rfl, hs⟩ <;> rcases hy with rfl | ⟨t, rfl, ht⟩
    · exact Spec.pure ⟨pub_of (by ring), hst⟩
    · exact Spec.pure ⟨arith_of (isShamir_mulPublic ht v) (by ring), hst⟩
    · exact Spec.pure ⟨arith_of (isShamir_mulPublic hs u) (by ring), hst⟩
    · refine Spec.bind (Shamir.spec_mul hst hs ht) ?_
      rintro r st' ⟨hr, hst'⟩
      exact Spec.pure ⟨arith_of (isShamir_mulPublic hr 1) (by ring), hst'⟩
  solveLinearTerm c x v y u hx hy := by
    refine (shamirRel n R M p t bad).pure (a := fun i => shamirLinearTerm c (x i) (y i)) ?_
    rcases hx with rfl | ⟨s, rfl, hs⟩ <;> rcases hy with rfl | ⟨t, rfl, ht⟩
    · exact pub_of (add_comm _ _)
    · exact arith_of (isShamir_addPublic ht (c * v)) rfl
    · exact arith_of (isShamir_addPublic (isShamir_mulPublic hs c) u) (by ring)
    · exact arith_of ((isShamir_mulPublic hs c).add ht) (by ring)
  solveEquation {x v y u} hb hx hy := by
    intro b hb' st hst
    have hb' : plainSolveEquation v u = Except.ok b := hb'
    unfold plainSolveEquation at hb'
    split_ifs at hb' with hv
    obtain rfl := ok_inj.mp hb'
    rcases hx with rfl | ⟨s, rfl, hs⟩
    · rcases hy with rfl | ⟨t, rfl, ht⟩
      · simp only [shamir, shamirEquation, plainSolveEquation, if_neg hv, pubOr]
        exact specE_ok (Spec.pure ⟨pub_of rfl, hst⟩)
      · simp only [shamir, shamirEquation, Shamir.divSharedByPublic, if_neg hv, arithOr]
        exact specE_ok (Spec.pure ⟨arith_of (isShamir_mulPublic ht.neg v⁻¹) (by rw [div_eq_mul_inv]), hst⟩)
    · have hbad : bad := hb.resolve_right fun h => by
        have := congrFun h 0
        cases this
      rcases hy with rfl | ⟨t, rfl, ht⟩
      · refine SpecE.bindAll (Shamir.spec_divPublicByShared hst hs) ?_ (fun e _ => Or.inl ⟨e, fun _ => rfl, hbad⟩)
        rintro r st' ⟨-, hr, hst'⟩
        exact SpecE.pure (Or.inr ⟨_, st', fun _ => rfl, arith_of hr rfl, hst'⟩)
      · refine SpecE.bindAll (Shamir.spec_div hst ht.neg hs) ?_ (fun e _ => Or.inl ⟨e, fun _ => rfl, hbad⟩)
        rintro r st' ⟨-, hr, hst'⟩
        exact SpecE.pure (Or.inr ⟨_, st', fun _ => rfl, arith_of hr rfl, hst'⟩)
  initLut h := h.elim
  readLut _ h := h.elim
  writeLut _ _ h := h.elim
  bitwiseAnd h := h.elim
  bitwiseXor h := h.elim
  openMany hx := shamirRel_spec fun b hb st hst => by
    refine (Shamir.spec_openVec hst hx).mono ?_
    rintro r s ⟨rfl, rfl⟩
    exact ⟨rfl, hst⟩
  fail Q q e b hb := by cases hb
  result h b hb st hst := by
    refine (h b hb st hst).mono fun r hr => ?_
    rcases hr with hr | ⟨a, s, h1, h2, h3⟩
    · exact .inl hr
    · exact .inr ⟨a, s, h1, ⟨h2, hb⟩, h3⟩

end Verif.Acvm
