import Verif.Curve.ConvertLemmas
import Verif.Rep3.Privacy

/-!
# Lemmas: the first message of a conversion from points to coordinates
-/

namespace Verif

theorem Runs.congr {ι M E α : Type} [DecidableEq ι] {p q : ι → Prog ι M E α} {r : ι → Except E α}
    {l : ι → List (ι × M)} (h : ∀ i, p i = q i) (hq : Runs q r l) : Runs p r l := by
  obtain rfl : p = q := funext h
  exact hq

namespace Rep3

open PartyID
open MPC (bail)

theorem runs_reshareMany {M F R : Type} [Codec M (List F)] {x : PartyID → List F}
    {s : PartyID → Rep3State R} :
    Runs (M := M) (fun j => reshareMany (x j) j (s j)) (fun j => .ok (x j.prev, s j))
      (fun j => [(j.prev, Codec.enc (x j.prev))]) := by
  obtain ⟨n, hn⟩ := steps_round (E := Err) (M := M) (ι := PartyID)
    (outs := fun j => [(j.next, Codec.enc (x j))])
    (ins := fun j => [j.prev]) (msg := fun j _ => Codec.enc (x j))
    (α := List F × Rep3State R)
    (k := fun j ms => match ms with
      | [m] => (match (Codec.dec m : Option (List F)) with
          | some l => .ret (l, s j)
          | none => .fail (.err "deserialization failed") :
            Prog PartyID M Err (List F × Rep3State R))
      | _ => .fail (.err ""))
    (by intro i j; cases i <;> cases j <;> simp [msgsTo]) (by simp)
  refine ⟨n, ?_⟩
  convert hn using 1
  · congr 1
    funext j
    simp [reshareMany, sendAndRecvMany, sendMany, recvMany, MPC.recv_apply, sendsThen,
      recvsThen]
    funext m
    cases (Codec.dec m : Option (List F)) <;> rfl
  · refine Config.ext' (fun j => ?_) (fun _ _ => rfl) (fun j => rfl)
    simp [Config.final, Prog.ofExcept]

namespace Curve

variable {R M : Type} {p w : Nat} [Fact p.Prime] {a b : ZMod p} {ty : A2BType}
variable {st : PartyID → Rep3State R} [Sample R (ZMod p)] [Codec M (List (ZMod p))]

theorem runs_preMany {l : List (PartyID → Share (Pt a b))} (hl : ∀ x ∈ l, ∃ P, IsShare x P)
    (hnz : ∀ x ∈ l, ∀ i, (x i).a ≠ 0) (hst : Corr ty st) :
    ∃ (rx ry : PartyID → ZMod p) (v : PartyID → (List (Share (ZMod p)) × List (Share (ZMod p)) ×
      List (Share (ZMod p)) × List (Share (ZMod p))) × Rep3State R),
      Runs (M := M) (fun i => preMany (l.map (· i)) i (st i)) (fun i => .ok (v i))
        (fun i => [(i.prev, Codec.enc (l.map (fun x => (preOwn i.prev (x i.prev) (rx i.prev) (ry i.prev)).1) ++
          l.map fun x => (preOwn i.prev (x i.prev) (rx i.prev) (ry i.prev)).2))]) := by
  have hc : ∀ i, (l.map (· i)).all (fun s => !(decide (s.a = 0) || decide (s.b = 0))) = true := by
    intro i
    rw [List.all_eq_true]
    intro s hs
    obtain ⟨x, hx, rfl⟩ := List.mem_map.1 hs
    obtain ⟨P, hP⟩ := hl x hx
    simp [hP.1 i, hnz x hx i, hnz x hx i.prev]
  let m1 := fun i => (st i).rngs.rand.masking (α := ZMod p)
  let m2 := fun i => (m1 i).2.masking (α := ZMod p)
  have h := Runs.bind_ok (runs_reshareMany (M := M)
    (x := fun i => l.map (fun x => (preOwn i (x i) (m1 i).1 (m2 i).1).1) ++
      l.map fun x => (preOwn i (x i) (m1 i).1 (m2 i).1).2)
    (s := fun i => { st i with rngs := { (st i).rngs with rand := (m2 i).2 } }))
    (k := fun i r => (if r.1.length ≠ 2 * l.length then .fail (.err "Expected 2*len elements")
      else .ret ((List.zipWith Share.mk (l.map fun x => (preOwn i (x i) (m1 i).1 (m2 i).1).1) (r.1.take l.length),
        List.zipWith Share.mk (l.map fun x => (preOwn i (x i) (m1 i).1 (m2 i).1).2) (r.1.drop l.length),
        l.map fun x => (preOther i (x i)).1, l.map fun x => (preOther i (x i)).2), r.2) :
          Prog PartyID M Err _))
    (s := fun i => .ok _) (l' := fun _ => []) (by
      simp only [List.length_append, List.length_map, ← two_mul, ne_eq, not_true_eq_false, if_false]
      exact runs_ret _)
  refine ⟨fun i => (m1 i).1, fun i => (m2 i).1, _, Runs.congr (fun i => ?_) h⟩
  have hc' := hc i
  simp only [preMany, hc', not_true_eq_false, if_false]
  simp [maskElem, withRand, stateId, hst.id, Function.comp_def, m1, m2]
  congr 1
  funext r
  split <;> simp_all

attribute [local instance] tapeSample

omit [Sample R (ZMod p)] [Codec M (List (ZMod p))] in
/-- What a party sends in the first round of the conversion of one point. -/
def preMsg (x : PartyID → Share (Pt a b)) (tp : PartyID → List (ZMod p)) (t : ZMod p × ZMod p)
    (i : PartyID) : List (ZMod p) :=
  let tp' := fun j => if j = ID0 then [t.1, t.2] else tp j
  let z := preOwn i (x i) ((tp' i).headI - (tp' i.prev).headI) ((tp' i).tail.headI - (tp' i.prev).tail.headI)
  [z.1, z.2]

omit [Sample R (ZMod p)] [Codec M (List (ZMod p))] in
theorem preMsg_one {x : PartyID → Share (Pt a b)} {P : Pt a b} (hx : IsShare x P)
    (tp : PartyID → List (ZMod p)) (t : ZMod p × ZMod p) :
    preMsg x tp t ID1 = [(tp ID1).headI - t.1 + coordX ((x ID0).a + (x ID1).a),
      (tp ID1).tail.headI - t.2 + coordY ((x ID0).a + (x ID1).a)] := by
  simp [preMsg, preOwn_eq, hx.b1, add_comm (x ID1).a]

omit [Sample R (ZMod p)] [Codec M (List (ZMod p))] in
/-- The end of the first round, as a program. -/
def preEnd (z : List (ZMod p)) (x2 : Share (ZMod p) × Share (ZMod p)) (l : List (ZMod p)) :
    Rep3M R M (Share (ZMod p) × Share (ZMod p) × Share (ZMod p) × Share (ZMod p)) :=
  match l with
  | [bx, by'] => pure (⟨z.headI, bx⟩, ⟨z.tail.headI, by'⟩, x2.1, x2.2)
  | _ => bail "Expected 2 elements"

omit [Sample R (ZMod p)] in
theorem runs_pre {x : PartyID → Share (Pt a b)} {P : Pt a b} (hx : IsShare x P)
    (hnz : ∀ i, (x i).a ≠ 0) (tp : PartyID → List (ZMod p)) (t : ZMod p × ZMod p) :
    ∃ v : PartyID → (Share (ZMod p) × Share (ZMod p) × Share (ZMod p) × Share (ZMod p)) ×
        Rep3State (List (ZMod p)),
      Runs (M := M) (fun i => (pre (x i) : Rep3M (List (ZMod p)) M _) i
        (tapeStates (fun j => if j = ID0 then [t.1, t.2] else tp j) i)) (fun i => .ok (v i))
        (fun i => [(i.prev, Codec.enc (preMsg x tp t i.prev))]) := by
  have hc : ∀ i, ¬ ((x i).a = 0 ∨ (x i).b = 0) := by
    intro i
    rw [hx.1 i]
    exact fun h => h.elim (hnz i) (hnz i.prev)
  have h := Runs.bind_ok (runs_reshareMany (M := M)
    (x := preMsg x tp t)
    (s := tapeStates fun j => ((if j = ID0 then [t.1, t.2] else tp j).tail).tail))
    (k := fun i r => (preEnd (preMsg x tp t i) (preOther i (x i)) r.1 : Rep3M (List (ZMod p)) M _) i r.2)
    (s := fun i => .ok _) (l' := fun _ => []) (by
      simp only [preMsg, preEnd]
      exact runs_ret _)
  refine ⟨_, Runs.congr (fun i => ?_) h⟩
  simp only [pre, hc i, if_false]
  simp [maskElem, withRand, stateId, Rep3Rand.masking, Rep3Rand.randomPair, tapeStates, sample_tape, preMsg]
  rfl

end Curve

end Rep3

end Verif
