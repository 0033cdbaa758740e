import Verif.Rep3.Arith
import Verif.Shamir.Arith

/-!
# Model: evaluating shared polynomials in parallel

Models `/repo/mpc-core/src/protocols/rep3/poly.rs` and `/repo/mpc-core/src/protocols/shamir/poly.rs`.
The two files have the same code for the two kinds of shares; the model takes the three operations on
shares that the code uses as a parameter and is instantiated with each.

The work is split over a thread pool.  The number of threads is a parameter, and rayon's `reduce` may
combine the partial results in any grouping and insert the identity anywhere, so the result is a
relation: `EvalPoly` holds of every value the code may return.
-/

namespace Verif.Poly

variable {S F : Type}

/-- The operations on shares the code uses. -/
structure Ops (S F : Type) where
  add : S → S → S
  mulPublic : S → F → S
  zeroShare : S

/-- `/repo/mpc-core/src/protocols/rep3/poly.rs:11` (`FieldShare` is the replicated share). The
scaling of lines 62-63 multiplies both components, as `mul_public` does. -/
def rep3Ops [Add F] [Mul F] [Zero F] : Ops (Share F) F := ⟨Rep3.add, Rep3.mulPublic, Share.zeroShare⟩

/-- `/repo/mpc-core/src/protocols/shamir/poly.rs:12` -/
def shamirOps [Field F] : Ops F F := ⟨Shamir.add, Shamir.mulPublic, 0⟩

/-- `/repo/mpc-core/src/protocols/rep3/poly.rs:28-34`, `/repo/mpc-core/src/protocols/shamir/poly.rs:28-34`;
`rfold` starts with the last coefficient. -/
def hornerEvaluate (ops : Ops S F) (coeffs : List S) (point : F) : S :=
  coeffs.foldr (fun coeff result => ops.add (ops.mulPublic result point) coeff) ops.zeroShare

/-- `par_chunks(n)`: consecutive pieces of `n` elements, the last one possibly shorter. -/
def chunks {α : Type} (n : Nat) (hn : 0 < n) (l : List α) : List (List α) :=
  if h : l = [] then []
  else l.take n :: chunks n hn (l.drop n)
termination_by l.length
decreasing_by
  have := List.length_pos_of_ne_nil h
  rw [List.length_drop]; omega

/-- All results rayon's `reduce` may give: any grouping of the items in order, with the identity in
any place. -/
inductive Reduces (op : S → S → S) (identity : S) : List S → S → Prop
  | identity : Reduces op identity [] identity
  | item (x : S) : Reduces op identity [x] x
  | node {l₁ l₂ : List S} {r₁ r₂ : S} : Reduces op identity l₁ r₁ → Reduces op identity l₂ r₂ →
      Reduces op identity (l₁ ++ l₂) (op r₁ r₂)

/-- `/repo/mpc-core/src/protocols/rep3/poly.rs:49`, `/repo/mpc-core/src/protocols/shamir/poly.rs:49` -/
def elemsPerThread (numCoeffs threads : Nat) : Nat := max (numCoeffs / threads) 16

theorem elemsPerThread_pos (numCoeffs threads : Nat) : 0 < elemsPerThread numCoeffs threads := by
  simp [elemsPerThread]

/-- The partial result of every chunk. `/repo/mpc-core/src/protocols/rep3/poly.rs:56-66`,
`/repo/mpc-core/src/protocols/shamir/poly.rs:56-65` -/
def partialResults [Monoid F] (ops : Ops S F) (threads : Nat) (coeffs : List S) (point : F) : List S :=
  (chunks (elemsPerThread coeffs.length threads) (elemsPerThread_pos _ _) coeffs).mapIdx fun i chunk =>
    ops.mulPublic (hornerEvaluate ops chunk point) (point ^ (i * elemsPerThread coeffs.length threads))

/-- `eval_poly` may return `r`. At the point zero the first coefficient is returned, and there is no
result (a panic) without coefficients. `/repo/mpc-core/src/protocols/rep3/poly.rs:39-68`,
`/repo/mpc-core/src/protocols/shamir/poly.rs:39-67` -/
def EvalPoly [MonoidWithZero F] (ops : Ops S F) (threads : Nat) (coeffs : List S) (point : F) (r : S) :
    Prop :=
  (point = 0 ∧ coeffs.head? = some r) ∨
    (point ≠ 0 ∧ Reduces ops.add ops.zeroShare (partialResults ops threads coeffs point) r)

end Verif.Poly
