import Mathlib.Algebra.Ring.Defs

/-!
# Specification: plain programs

A small language of straight-line instructions over registers with opened values on which the rest of
the program may depend, and its meaning on plain values.  The same programs are run on shares in
`Verif.Rep3.Program`.
-/

namespace Verif

/-- Instructions; numbers are registers. Every instruction appends its results to the registers. -/
inductive Instr (F : Type) where
  | const (c : F)
  | add (i j : Nat)
  | sub (i j : Nat)
  | neg (i : Nat)
  | addPublic (i : Nat) (c : F)
  | subSharedByPublic (i : Nat) (c : F)
  | subPublicByShared (c : F) (i : Nat)
  | mulPublic (i : Nat) (c : F)
  | mul (i j : Nat)
  | mulVec (is js : List Nat)
  | cmux (c t f : Nat)
  | pow (i : Nat) (e : Nat)
  | xor (i j : Nat)

/-- A program: run instructions, or reveal a register and go on depending on its value. -/
inductive Program (F : Type) where
  | done
  | instr (x : Instr F) (k : Program F)
  | reveal (i : Nat) (k : F → Program F)

/-- Meaning of an instruction on plain values: `none` if a register does not exist, or if a selection
or an exclusive or is applied to something that is not a bit. -/
def Instr.plain {F : Type} [CommRing F] [DecidableEq F] (rs : List F) : Instr F → Option (List F)
  | .const c => some [c]
  | .add i j => do pure [(← rs[i]?) + (← rs[j]?)]
  | .sub i j => do pure [(← rs[i]?) - (← rs[j]?)]
  | .neg i => do pure [-(← rs[i]?)]
  | .addPublic i c => do pure [(← rs[i]?) + c]
  | .subSharedByPublic i c => do pure [(← rs[i]?) - c]
  | .subPublicByShared c i => do pure [c - (← rs[i]?)]
  | .mulPublic i c => do pure [(← rs[i]?) * c]
  | .mul i j => do pure [(← rs[i]?) * (← rs[j]?)]
  | .mulVec is js => do
    let xs ← is.mapM (rs[·]?)
    let ys ← js.mapM (rs[·]?)
    pure (List.zipWith (· * ·) xs ys)
  | .cmux c t f => do
    let c ← rs[c]?
    let t ← rs[t]?
    let f ← rs[f]?
    if c = 1 then pure [t] else if c = 0 then pure [f] else none
  | .pow i e => do pure [(← rs[i]?) ^ e]
  | .xor i j => do
    let x ← rs[i]?
    let y ← rs[j]?
    if (x = 0 ∨ x = 1) ∧ (y = 0 ∨ y = 1) then pure [if x = y then 0 else 1] else none

/-- Meaning of a program on plain values: the values revealed, in order, and all registers at the
end. -/
def Program.plain {F : Type} [CommRing F] [DecidableEq F] :
    Program F → List F → Option (List F × List F)
  | .done, rs => some ([], rs)
  | .instr x k, rs => do
    let out ← x.plain rs
    k.plain (rs ++ out)
  | .reveal i k, rs => do
    let v ← rs[i]?
    let (o, rs) ← (k v).plain rs
    pure (v :: o, rs)

end Verif
