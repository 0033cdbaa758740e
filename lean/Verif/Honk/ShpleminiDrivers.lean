import Verif.Honk.Shplemini
import Verif.Plonk.Drivers

/-!
# Model: the drivers of the collaborative opening proof

`ev` is the result of `eval_poly`, which sums in an order chosen at run time.
-/

namespace Verif.Honk

/-- `CoDecider::prove` without zero knowledge: the sumcheck and then the opening at its challenges.  The challenges of the opening may
depend on all that the sumcheck has sent. `/repo/co-noir/co-ultrahonk/src/co_decider/co_decider_prover.rs:93-100, 116-125, 156-185` -/
def coDecide {m : Type → Type} [Monad m] {F A G B : Type} [Field F] [DecidableEq F] [Zero A] [Add A] [Sub A] [Neg A] [SMul F A]
    (ds : SumDriver m F A) (dp : PcsDriver m F A G B) (p : Params F) (alphas betas : List F) (sch : List (Univariate F 8) → F)
    (ch : SumcheckProof F 8 → PcsChallenges F G) (crs : List G) (logN D : Nat) (pub : Col → List F) (shr : Col → List A) :
    m (SumcheckProof F 8 × PcsProof F G) := do
  let s ← coSumcheckProve ds p alphas betas sch (2 ^ logN) D pub shr
  let o ← shpleminiProve dp (ch s) crs logN ((List.range s.univariates.length).map fun r => sch (s.univariates.take (r + 1)))
    (Col.precomputed.map pub) (Col.witness.map shr) (Col.toBeShifted.map shr)
  pure (s, o)

section Rep3

variable {F G R M : Type} [Field F] [DecidableEq F] [AddCommGroup G] [Module F G] [Sample R F] [Codec M (List F)] [Codec M (List G)]
  [Codec M (List (List G))]

/-- The driver for Rep3. `/repo/co-noir/co-noir-common/src/mpc/rep3.rs:139-179, 259-274`,
`/repo/co-noir/co-noir-common/src/lib.rs:88-101` -/
def rep3Pcs (id : PartyID) (ev : List (Share F) → F → Share F) : PcsDriver (MPC PartyID (Rep3State R) M Err) F (Share F) G (Share G) where
  promote x := Rep3.promoteToTrivialShare id x
  evalPoly := ev
  roundUp n := n
  commit crs p := if crs.length < p.length then MPC.throw (.panic "range end index out of range for slice")
    else pure (Rep3.Point.msmPublicPoints (crs.take p.length) p)
  openPoints := Rep3.Point.openPointMany
  openPoint := Rep3.Point.openPoint
  openMany := Rep3.openVec
  fail := MPC.throw

end Rep3

section Shamir

variable {F G : Type} [Field F] [AddCommGroup G] [Module F G] {n : Nat} {R M : Type} [Sample R F] [Codec M (List F)] [Codec M G]
  [Codec M (List G)]

/-- The driver for Shamir. `/repo/co-noir/co-noir-common/src/mpc/shamir.rs:130-171, 250-264`,
`/repo/co-noir/co-noir-common/src/lib.rs:88-101` -/
def shamirPcs (ev : List F → F → F) : PcsDriver (MPC (Fin n) (Shamir.ShamirState n R F) M Err) F F G G where
  promote x := Shamir.promote x
  evalPoly := ev
  roundUp n := n
  commit crs p := if crs.length < p.length then MPC.throw (.panic "range end index out of range for slice")
    else pure (Shamir.msmPublicPoints (crs.take p.length) p)
  openPoints := Shamir.openVec
  openPoint := Shamir.openShare
  openMany := Shamir.openVec
  fail := MPC.throw

end Shamir

end Verif.Honk
