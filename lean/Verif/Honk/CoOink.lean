import Verif.Spec.HonkMemory
import Verif.Honk.Oink
import Verif.Honk.Lookup
import Verif.Plonk.ArrayProd
import Verif.Rep3.Arith
import Verif.Shamir.Arith
import Verif.Groth16.Model

/-!
# The collaborative Oink prover

Models the fourth wire, the inverses of the lookup argument and the permutation column of
`/repo/co-noir/co-ultrahonk/src/co_oink/co_oink_prover.rs`, on shares of the witness, with the drivers of
`/repo/co-noir/co-noir-common/src/mpc/rep3.rs` and `/repo/co-noir/co-noir-common/src/mpc/shamir.rs`; and the fourth wire of the
prover in the clear.  A column is a function of the row.
-/

namespace Verif.Honk

section Plain

variable {F : Type} [Field F]

/-- The part of a memory record that is not the flag.  `/repo/co-noir/ultrahonk/src/oink/oink_prover.rs:129-132` -/
def plainRecord (η : Eta F) (w : Fin 4 → Nat → F) (i : Nat) : F := w 0 i * η.one + w 1 i * η.two + w 2 i * η.three

/-- `compute_w4`; an index outside of the column panics.  `/repo/co-noir/ultrahonk/src/oink/oink_prover.rs:107-146` -/
def computeW4 (η : Eta F) (size : Nat) (reads writes : List Nat) (w : Fin 4 → Nat → F) : Except Err (Nat → F) := do
  let w4 ← reads.foldlM (fun (w4 : Nat → F) i =>
    if i < size then .ok (Function.update w4 i (w4 i + plainRecord η w i))
    else .error (.panic "index out of bounds")) (w 3)
  writes.foldlM (fun (w4 : Nat → F) i =>
    if i < size then .ok (Function.update w4 i (w4 i + (plainRecord η w i + 1)))
    else .error (.panic "index out of bounds")) w4

end Plain

/-- The operations of `NoirUltraHonkProver` that the Oink prover uses.
`/repo/co-noir/co-noir-common/src/mpc/mod.rs:20-292` -/
structure CoDriver (c : Type → Type) (F A : Type) where
  addPub : A → F → A
  promote : F → A
  rand : c A
  mulMany : List A → List A → c (List A)
  mulOpenMany : List A → List A → c (List F)
  invMany : List A → c (List A)
  fail : {α : Type} → Err → c α

variable {F A : Type} {c : Type → Type} [Monad c] [Field F] [DecidableEq F] [Zero A] [Add A] [SMul F A]

namespace CoDriver

/-- A local computation that may panic. -/
def lift (d : CoDriver c F A) {α : Type} : Except Err α → c α
  | .ok a => pure a
  | .error e => d.fail e

/-- `inv_many_in_place`, called by `batch_invert`.
`/repo/co-noir/co-noir-common/src/mpc/rep3.rs:216-235`, `/repo/co-noir/co-noir-common/src/mpc/shamir.rs:207-226`,
`/repo/co-noir/co-noir-common/src/lib.rs:103-109` -/
def invInPlace (d : CoDriver c F A) (a : List A) : c (List A) := do
  let r ← (List.range a.length).mapM fun (_ : Nat) => d.rand
  let y ← d.mulOpenMany a r
  if y.any fun y => decide (y = 0) then d.fail (.err "Cannot compute inverse of zero")
  else pure (List.zipWith (fun (r : A) (y : F) => y⁻¹ • r) r y)

/-- `inv_many_in_place_leaking_zeros`, called by `batch_invert_leaking_zeros`.
`/repo/co-noir/co-noir-common/src/mpc/rep3.rs:237-257`, `/repo/co-noir/co-noir-common/src/mpc/shamir.rs:228-248`,
`/repo/co-noir/co-noir-common/src/lib.rs:111-117` -/
def invLeaking (d : CoDriver c F A) (a : List A) : c (List A) := do
  let r ← (List.range a.length).mapM fun (_ : Nat) => d.rand
  let y ← d.mulOpenMany a r
  pure (List.zipWith (fun (r : A) (y : F) => if y = 0 then 0 else y⁻¹ • r) r y)

/-- `array_prod_mul`; the loop over `open` is `prefixProducts`.  `/repo/co-noir/co-noir-common/src/lib.rs:138-165` -/
def arrayProdMul (d : CoDriver c F A) (inp : List A) : c (List A) := do
  let r ← Plonk.randInv d.rand d.invMany (inp.length + 1)
  let unblind ← d.mulMany (List.replicate inp.length (r.2.getD 0 0)) r.1.tail
  let mul ← d.mulMany (r.1.take inp.length) inp
  let opened ← d.mulOpenMany mul r.2.tail
  pure (List.zipWith (fun (o : F) (u : A) => o • u) (Plonk.prefixProducts 1 opened) unblind)

/-- `compute_w4_inner`, with the check of the index.
`/repo/co-noir/co-ultrahonk/src/co_oink/co_oink_prover.rs:98-117` -/
def w4Inner (η : Eta F) (size : Nat) (w : Fin 4 → Nat → A) (w4 : Nat → A) (i : Nat) : Except Err (Nat → A) :=
  if i < size then .ok (Function.update w4 i (w4 i + η.one • w 0 i + η.two • w 1 i + η.three • w 2 i))
  else .error (.panic "index out of bounds")

/-- `add_ram_rom_memory_records_to_wire_4`.  The flag of a shared record is a share.
`/repo/co-noir/co-ultrahonk/src/co_oink/co_oink_prover.rs:119-160` -/
def w4 (d : CoDriver c F A) (η : Eta F) (size : Nat) (reads writes : List Nat) (shared : List (Nat × A)) (w : Fin 4 → Nat → A) :
    Except Err (Nat → A) := do
  let w4 ← reads.foldlM (w4Inner η size w) (w 3)
  let w4 ← writes.foldlM (fun w4 i => do
    let w4 ← w4Inner η size w w4 i
    pure (Function.update w4 i (d.addPub (w4 i) 1))) w4
  shared.foldlM (fun w4 x => do
    let w4 ← w4Inner η size w w4 x.1
    pure (Function.update w4 x.1 (x.2 + w4 x.1))) w4

/-- `compute_lookup_term` at one row, with the public columns `q` and the shared columns `e`.
`/repo/co-noir/co-ultrahonk/src/co_oink/co_oink_prover.rs:162-211` -/
def lookupTerm (d : CoDriver c F A) (β γ : F) (q : Col → F) (e : Col → A) : A :=
  let betaSqr := β * β
  let betaCube := betaSqr * β
  let entry1 := e .wl + d.addPub (q .qr • e .wlShift) γ
  let entry2 := e .wr + q .qm • e .wrShift
  let entry3 := e .wo + q .qc • e .woShift
  let res := entry1 + β • entry2
  let res := res + betaSqr • entry3
  d.addPub res (betaCube * q .qo)

/-- `compute_logderivative_inverses`; `compute_table_term` is `computeWriteTerm`.
`/repo/co-noir/co-ultrahonk/src/co_oink/co_oink_prover.rs:213-293` -/
def lookupInverses (d : CoDriver c F A) (β γ : F) (size : Nat) (q : Col → Nat → F) (e : Col → Nat → A) : c (List A) := do
  let mask := (List.range size).map fun i => d.addPub ((1 - q .qLookup i) • e .lookupReadTags i) (q .qLookup i)
  let terms := (List.range size).map fun i =>
    computeWriteTerm β γ (fun c => q c i) • d.lookupTerm β γ (fun c => q c i) (fun c => e c i)
  let l ← d.mulMany terms mask
  d.invLeaking l

/-- `batched_grand_product_num_denom`.  `/repo/co-noir/co-ultrahonk/src/co_oink/co_oink_prover.rs:343-380` -/
def numDenom (d : CoDriver c F A) (w1 w2 : Nat → A) (p1 p2 : Nat → F) (β γ : F) (rows : List Nat) : c (List A) :=
  d.mulMany (rows.map fun i => d.addPub (w1 i) (p1 i * β + γ)) (rows.map fun i => d.addPub (w2 i) (p2 i * β + γ))

/-- `compute_grand_product`.  The wire `3` is the result of `w4`.  The indices are computed before the first message.
`/repo/co-noir/co-ultrahonk/src/co_oink/co_oink_prover.rs:382-507` -/
def grandProduct (d : CoDriver c F A) (key : Key F) (w : Fin 4 → Nat → A) (β γ : F) : c (Nat → A) := do
  let hasActive := key.active.idxs.length > 0
  let domain := key.finalActive + 1
  let activeSize := if hasActive then key.active.idxs.length else domain
  let idx := fun i => if hasActive then index key.active.idxs i else Except.ok i
  let rows ← d.lift ((List.range (activeSize - 1)).mapM idx)
  let targets ← d.lift ((List.range (activeSize - 1)).mapM fun i => idx (i + 1))
  let denom1 ← d.numDenom (w 0) (w 1) (key.sigma 0) (key.sigma 1) β γ rows
  let denom2 ← d.numDenom (w 2) (w 3) (key.sigma 2) (key.sigma 3) β γ rows
  let num1 ← d.numDenom (w 0) (w 1) (key.id 0) (key.id 1) β γ rows
  let num2 ← d.numDenom (w 2) (w 3) (key.id 2) (key.id 3) β γ rows
  let numerator ← d.mulMany num1 num2
  let denominator ← d.mulMany denom1 denom2
  let numerator ← d.arrayProdMul numerator
  let denominator ← d.arrayProdMul denominator
  let denominator ← d.invInPlace denominator
  let mul ← d.mulMany numerator denominator
  if key.size ≤ 1 then d.fail (.panic "index out of bounds")
  else
    let z := (targets.zip mul).foldl (fun z x => Function.update z x.1 x.2) (Function.update (fun _ => (0 : A)) 1 (d.promote 1))
    if hasActive then
      pure ((List.range domain).foldl (fun z i => match gapStart key.active.ranges i with
        | some s => Function.update z i (z s)
        | none => z) z)
    else pure z

end CoDriver

section Rep3

variable {R M : Type} [Sample R F] [Codec M (List F)]

/-- `impl NoirUltraHonkProver<P> for Rep3UltraHonkDriver`.
`/repo/co-noir/co-noir-common/src/mpc/rep3.rs` -/
def rep3Driver (id : PartyID) : CoDriver (MPC PartyID (Rep3State R) M Err) F (Share F) where
  addPub x y := Rep3.addPublic x y id
  promote x := Rep3.promoteToTrivialShare id x
  rand := Rep3.rand
  mulMany := Rep3.mulVec
  mulOpenMany := Rep3.mulOpenVec
  invMany := Rep3.invVec
  fail := MPC.throw

end Rep3

section Shamir

variable {n : Nat} {R M : Type} [Sample R F] [Codec M (List F)]

/-- `impl NoirUltraHonkProver<P> for ShamirUltraHonkDriver`.
`/repo/co-noir/co-noir-common/src/mpc/shamir.rs` -/
def shamirDriver : CoDriver (MPC (Fin n) (Shamir.ShamirState n R F) M Err) F F where
  addPub x y := Shamir.addPublic x y
  promote x := Shamir.promote x
  rand := Shamir.rand
  mulMany := Shamir.mulVec
  mulOpenMany := Shamir.mulOpenVec
  invMany := Shamir.invVec
  fail := MPC.throw

end Shamir

end Verif.Honk
