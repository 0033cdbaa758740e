import Verif.Plonk.ArrayProd
import Verif.Plonk.NetSim
import Verif.Poly.Eval
import Verif.Shamir.Arith

/-!
# The PLONK drivers

Models `/repo/co-circom/co-plonk/src/mpc/plain.rs`, `/repo/co-circom/co-plonk/src/mpc/rep3.rs` and
`/repo/co-circom/co-plonk/src/mpc/shamir.rs`.  `msm_unchecked` is the sum of
the multiples of the points.
-/

namespace Verif.Plonk

open Groth16 (FftParams)

section Plain

variable {F G H : Type} [Field F] [DecidableEq F] [AddCommGroup G] [Module F G]

/-- Code of the plain driver: `thread_rng` is an arbitrary sequence of field elements. -/
abbrev PlainM (F : Type) := StateT (Nat → F) (Except Err)

/-- `F::rand(&mut thread_rng())`, `/repo/co-circom/co-plonk/src/mpc/plain.rs:31-34` -/
def plainRand : PlainM F F := fun ρ => .ok (ρ 0, fun n => ρ (n + 1))

/-- `/repo/co-circom/co-plonk/src/mpc/plain.rs:122-135`, `173-182` -/
def plainInvVec (a : List F) : PlainM F (List F) := fun ρ =>
  if 0 ∈ a then .error (.err "Cannot invert zero") else .ok (a.map (·⁻¹), ρ)

/-- `inv_vec(..).unwrap()` -/
def plainInvUnwrap (a : List F) : PlainM F (List F) := fun ρ =>
  if 0 ∈ a then .error (.panic "called `Result::unwrap()` on an `Err` value") else .ok (a.map (·⁻¹), ρ)

/-- `impl CircomPlonkProver<P> for PlainPlonkDriver`, `/repo/co-circom/co-plonk/src/mpc/plain.rs:18-222`.  The closures on the
networks are run one after the other; which of them draws a random value first makes no difference, as the sequence is
arbitrary. -/
def plain : Driver (PlainM F) (PlainM F) F F G G where
  addPub x y := x + y
  promote x := x
  evalPoly := evalPublic
  msm := Rep3.Point.msm
  rand := plainRand
  mulVec x y := pure (List.zipWith (· * ·) x y)
  addMulVec x y z := pure (List.zipWith (· + ·) x (List.zipWith (· * ·) y z))
  arrayProdMul := arrayProdMul (fun x y => pure (List.zipWith (· * ·) x y)) plainRand plainInvUnwrap plainInvVec
    (fun x y => pure (List.zipWith (· * ·) x y))
  openVec x := pure x
  openPoints x := pure x
  openPoint x := pure x
  first x := x
  join ps := ps.mapM (·.2)
  fail e := fun _ => .error e

end Plain

section Rep3

variable {R M F G H : Type} [Field F] [DecidableEq F] [AddCommGroup G] [Module F G]

/-- `state.fork(n)`: the number is not used. `/repo/mpc-core/src/protocols/rep3.rs:120-132` -/
def rep3Fork (Seed : Type) [Sample R Seed] [Seedable R Seed] (_ : Nat) : Rep3M R M (Rep3State R) :=
  MPC.modifyGet fun s => s.fork Seed

/-- `impl CircomPlonkProver<P> for Rep3PlonkDriver`, `/repo/co-circom/co-plonk/src/mpc/rep3.rs:17-233`.  `ev` is the result of
`eval_poly`, which sums in an order chosen at run time. -/
def rep3 (Seed : Type) [Sample R Seed] [Seedable R Seed] [Sample R F] [Codec M (List F)] [Codec M (List G)]
    [Codec M (List (List G))] (id : PartyID) (ev : List (Share F) → F → Share F) :
    Driver (MPCₙ 7 PartyID (Rep3State R) M (List (Share F))) (MPC PartyID (Rep3State R) M Err) F (Share F) G (Share G) where
  addPub x y := Rep3.addPublic x y id
  promote x := Rep3.promoteToTrivialShare id x
  evalPoly := ev
  msm := Rep3.Point.msmPublicPoints
  rand := Rep3.rand
  mulVec := Rep3.mulVec
  addMulVec a b c := do
    let r ← Rep3.mulVec b c
    pure (Rep3.addVecAssign r a)
  arrayProdMul := arrayProdMul Rep3.mulVec Rep3.rand Rep3.invVec Rep3.invVec Rep3.mulOpenVec
  openVec := Rep3.openVec
  openPoints := Rep3.Point.openPointMany
  openPoint := Rep3.Point.openPoint
  first := MPCₙ.first
  join := joinWith (rep3Fork Seed)
  fail := MPCₙ.throw

/-- `Rep3CoPlonk::prove` once the state is set up, `/repo/co-circom/co-plonk/src/lib.rs:223-234`. -/
def rep3Prove (Seed : Type) [Sample R Seed] [Seedable R Seed] [Sample R F] [Codec M (List F)] [Codec M (List G)]
    [Codec M (List (List G))] (ev : List (Share F) → F → Share F) (hash : List (F ⊕ G) → F) (pr : FftParams F)
    (key : Zkey F G H) (pub : List F) (wit : List (Share F)) :
    MPCₙ 7 PartyID (Rep3State R) M (List (Share F)) (Proof F G) :=
  fun i s => prove (rep3 (M := M) (R := R) Seed s.id ev) hash pr key pub wit i s

end Rep3

section Shamir

variable {n : Nat} {R M F G H : Type} [Field F] [DecidableEq F] [AddCommGroup G] [Module F G]

/-- `impl CircomPlonkProver<P> for ShamirPlonkDriver`, `/repo/co-circom/co-plonk/src/mpc/shamir.rs:17-230`. -/
def shamir (Seed : Type) [Sample R Seed] [Seedable R Seed] [Sample R F] [Codec M (List F)] [Codec M G] [Codec M (List G)] :
    Driver (MPCₙ 7 (Fin n) (Shamir.ShamirState n R F) M (List F)) (MPC (Fin n) (Shamir.ShamirState n R F) M Err) F F G G where
  addPub x y := Shamir.addPublic x y
  promote x := Shamir.promote x
  evalPoly := evalPublic
  msm := Shamir.msmPublicPoints
  rand := Shamir.rand
  mulVec := Shamir.mulVec
  addMulVec a b c := do
    let r ← Shamir.mulVec b c
    pure (Shamir.addVec r a)
  arrayProdMul := arrayProdMul Shamir.mulVec Shamir.rand Shamir.invVec Shamir.invVec Shamir.mulOpenVec
  openVec := Shamir.openVec
  openPoints := Shamir.openVec
  openPoint := Shamir.openShare
  first := MPCₙ.first
  join := joinWith (Shamir.fork (Seed := Seed))
  fail := MPCₙ.throw

/-- `ShamirCoPlonk::prove` once the state is set up, `/repo/co-circom/co-plonk/src/lib.rs:243-260`. -/
def shamirProve (Seed : Type) [Sample R Seed] [Seedable R Seed] [Sample R F] [Codec M (List F)] [Codec M G] [Codec M (List G)]
    (hash : List (F ⊕ G) → F) (pr : FftParams F) (key : Zkey F G H) (pub : List F) (wit : List F) :
    MPCₙ 7 (Fin n) (Shamir.ShamirState n R F) M (List F) (Proof F G) :=
  prove (shamir (n := n) (M := M) (R := R) Seed) hash pr key pub wit

/-- `num_pairs`, `/repo/co-circom/co-plonk/src/lib.rs:255` -/
def shamirPairs (key : Zkey F G H) : Nat := key.domainSize * 222 + 15

end Shamir

end Verif.Plonk
