import Verif.Honk.Trace

/-!
# The permutation argument of the Oink prover

Models `compute_public_input_delta` and `compute_grand_product` of `/repo/co-noir/ultrahonk/src/oink/oink_prover.rs`.
-/

namespace Verif.Honk

variable {F : Type} [Field F] [DecidableEq F]

/-- The accumulators of `compute_public_input_delta`.  `/repo/co-noir/ultrahonk/src/oink/oink_prover.rs:256-278` -/
structure DeltaAcc (F : Type) where
  num : F
  denom : F
  numAcc : F
  denomAcc : F

/-- `compute_public_input_delta`; dividing by zero panics.  `/repo/co-noir/ultrahonk/src/oink/oink_prover.rs:238-282` -/
def publicInputDelta (β γ : F) (inputs : List F) (offset : Nat) : Except Err F :=
  let acc := inputs.foldl
    (fun (a : DeltaAcc F) x => ⟨a.num * (a.numAcc + x), a.denom * (a.denomAcc + x), a.numAcc + β, a.denomAcc - β⟩)
    ⟨1, 1, γ + ((separator : F) + (offset : F)) * β, γ - ((1 + offset : Nat) : F) * β⟩
  if acc.denom = 0 then .error (.panic "called `Option::unwrap()` on a `None` value") else .ok (acc.num / acc.denom)

/-- `compute_grand_product_numerator` and `grand_product_denominator`: the same terms with the columns `id` and `sigma`.
`/repo/co-noir/ultrahonk/src/oink/oink_prover.rs:284-332` -/
def rowProduct (β γ : F) (w s : Fin 4 → Nat → F) (i : Nat) : F :=
  (w 0 i + s 0 i * β + γ) * (w 1 i + s 1 i * β + γ) * (w 2 i + s 2 i * β + γ) * (w 3 i + s 3 i * β + γ)

/-- The products of the first entries.  `/repo/co-noir/ultrahonk/src/oink/oink_prover.rs:368-380` -/
def accumulate (l : List F) : List F := (l.foldl (fun (s : List F × F) x => (s.1 ++ [x * s.2], x * s.2)) ([], 1)).1

/-- The start of the next range if the row is in the gap after a range; the first such range counts.
`/repo/co-noir/ultrahonk/src/oink/oink_prover.rs:402-412` -/
def gapStart (ranges : List (Nat × Nat)) (i : Nat) : Option Nat :=
  (ranges.zip ranges.tail).findSome? fun r => if i ≥ r.1.2 ∧ i < r.2.1 then some r.2.1 else none

/-- `compute_grand_product`.  `batch_invert` leaves zero unchanged.  The wire `3` is the column that `compute_w4` returns.
`/repo/co-noir/ultrahonk/src/oink/oink_prover.rs:334-416` -/
def grandProduct (key : Key F) (w : Fin 4 → Nat → F) (β γ : F) : Except Err (Nat → F) := do
  let hasActive := key.active.idxs.length > 0
  let domain := key.finalActive + 1
  let activeSize := if hasActive then key.active.idxs.length else domain
  let idx := fun i => if hasActive then index key.active.idxs i else Except.ok i
  let rows ← (List.range (activeSize - 1)).mapM idx
  let numerator := accumulate (rows.map (rowProduct β γ w key.id))
  let denominator := (accumulate (rows.map (rowProduct β γ w key.sigma))).map (·⁻¹)
  if key.size ≤ 1 then throw (.panic "index out of bounds")
  let targets ← (List.range (activeSize - 1)).mapM fun i => idx (i + 1)
  let z := (targets.zip (numerator.zip denominator)).foldl (fun z x => Function.update z x.1 (x.2.1 * x.2.2))
    (Function.update (fun _ => (0 : F)) 1 1)
  if hasActive then
    pure ((List.range domain).foldl (fun z i => match gapStart key.active.ranges i with
      | some s => Function.update z i (z s)
      | none => z) z)
  else pure z

end Verif.Honk
