import Verif.Spec.Program
import Verif.Spec.Tape
import Verif.Rep3.Arith

/-!
# Specification: what one party may learn

`simulate` produces the messages a party receives in a run of a program, from nothing but that party's
own shares, its own two random tapes, the values the program reveals to everybody, and a list `ms` of
random elements.  Privacy says that the messages in real executions are distributed like that.
-/

namespace Verif

open PartyID

/-- Programs made of constants, linear instructions, multiplications and reveals. -/
def Instr.Basic {F : Type} : Instr F → Prop
  | .mulVec _ _ | .cmux _ _ _ | .pow _ _ | .xor _ _ => False
  | _ => True

/-- All instructions are basic. -/
def Program.Basic {F : Type} : Program F → Prop
  | .done => True
  | .instr x k => x.Basic ∧ k.Basic
  | .reveal _ k => ∀ v, (k v).Basic

/-- The operands, if the instruction is a multiplication. -/
def Instr.mulOperands {F : Type} : Instr F → Option (Nat × Nat)
  | .mul i j => some (i, j)
  | _ => none

/-- Number of multiplications executed when the revealed values are `out`. -/
def Program.mulCount {F : Type} [Inhabited F] : Program F → List F → Nat
  | .done, _ => 0
  | .instr x k, out => (if x.mulOperands.isSome then 1 else 0) + k.mulCount out
  | .reveal _ k, out => (k out.headI).mulCount out.tail

variable {F : Type} [CommRing F]

/-- What a party computes locally for a linear instruction, from its own registers. -/
def Instr.localResult (j : PartyID) (rs : List (Share F)) : Instr F → Share F
  | .const c => Rep3.promoteToTrivialShare j c
  | .add x y => rs.getD x ⟨0, 0⟩ + rs.getD y ⟨0, 0⟩
  | .sub x y => rs.getD x ⟨0, 0⟩ - rs.getD y ⟨0, 0⟩
  | .neg x => - rs.getD x ⟨0, 0⟩
  | .addPublic x c => Rep3.addPublic (rs.getD x ⟨0, 0⟩) c j
  | .subSharedByPublic x c => Rep3.subSharedByPublic (rs.getD x ⟨0, 0⟩) c j
  | .subPublicByShared c x => Rep3.subPublicByShared c (rs.getD x ⟨0, 0⟩) j
  | .mulPublic x c => (rs.getD x ⟨0, 0⟩).scale c
  | _ => ⟨0, 0⟩

/-- Simulator for party `i`: `own` are its registers, `A` and `B` its two tapes, `out` the values
revealed to everybody, `ms` random elements. The result is the list of received elements. -/
def simulate [Inhabited F] (i : PartyID) :
    Program F → (own : List (Share F)) → (A B out ms : List F) → List F
  | .done, _, _, _, _, _ => []
  | .instr x k, own, A, B, out, ms =>
    match x.mulOperands with
    | some (a, b) =>
      ms.headI :: simulate i k
        (own ++ [⟨(own.getD a ⟨0, 0⟩).localMul (own.getD b ⟨0, 0⟩) + (A.headI - B.headI), ms.headI⟩])
        A.tail B.tail out ms.tail
    | none => simulate i k (own ++ [x.localResult i own]) A B out ms
  | .reveal r k, own, A, B, out, ms =>
    (out.headI - (own.getD r ⟨0, 0⟩).a - (own.getD r ⟨0, 0⟩).b) ::
      simulate i (k out.headI) own A B out.tail ms

/-- Three states whose pairwise generators are the tapes `tp`: party `j` draws from `tp j` and from
the tape of the previous party. -/
def tapeStates {F : Type} (tp : PartyID → List F) : PartyID → Rep3State (List F) := fun j =>
  ⟨j, ⟨⟨tp j, tp j.prev⟩, ⟨[], [], none⟩, ⟨[], [], none⟩⟩, [], .direct⟩

end Verif
