import Verif.Rep3.ArithLemmas

/-!
# Lemmas about resharing from two to three parties
-/

namespace Verif

open PartyID

namespace Rep3

variable {R M F : Type} {ty : A2BType}

section Local

variable [Sample R F]

theorem mapM_pair (n : Nat) (i : PartyID) (s : Rep3State R) :
    ((List.range n).mapM fun (_ : Nat) => (do
      let (a, b) ← withRand (Rep3Rand.randomPair (α := F))
      pure (Share.mk a b) : Rep3M R M (Share F))) i s =
    .ret (List.zipWith Share.mk (sampleN s.rngs.rand.rng1 n).1 (sampleN s.rngs.rand.rng2 n).1,
      setRand s ⟨(sampleN (α := F) s.rngs.rand.rng1 n).2, (sampleN (α := F) s.rngs.rand.rng2 n).2⟩) := by
  rw [List.range_eq_range']
  induction n generalizing s with
  | zero => rfl
  | succ n ih =>
    rw [mapM_range_const]
    simp only [MPC.bind_apply, withRand, MPC.modifyGet_apply, Prog.ret_bind, MPC.pure_apply] at ih ⊢
    rw [ih]
    rfl

theorem mapM_draw2 (g : Share F → F → Share F) (l : List (Share F)) (i : PartyID)
    (s : Rep3State R) :
    (l.mapM fun inp => (do
      let b ← withRand (Rep3Rand.draw2 (α := F))
      pure (g inp b) : Rep3M R M (Share F))) i s =
    .ret (List.zipWith g l (sampleN s.rngs.rand.rng2 l.length).1,
      setRand s ⟨s.rngs.rand.rng1, (sampleN (α := F) s.rngs.rand.rng2 l.length).2⟩) := by
  induction l generalizing s with
  | nil => rfl
  | cons x xs ih =>
    simp only [List.mapM_cons, MPC.bind_apply, withRand, MPC.modifyGet_apply, Prog.ret_bind,
      MPC.pure_apply] at ih ⊢
    rw [ih]
    rfl

theorem mapM_draw1 (g : Share F → F → Share F) (l : List (Share F)) (i : PartyID)
    (s : Rep3State R) :
    (l.mapM fun inp => (do
      let b ← withRand (Rep3Rand.draw1 (α := F))
      pure (g inp b) : Rep3M R M (Share F))) i s =
    .ret (List.zipWith g l (sampleN s.rngs.rand.rng1 l.length).1,
      setRand s ⟨(sampleN (α := F) s.rngs.rand.rng1 l.length).2, s.rngs.rand.rng2⟩) := by
  induction l generalizing s with
  | nil => rfl
  | cons x xs ih =>
    simp only [List.mapM_cons, MPC.bind_apply, withRand, MPC.modifyGet_apply, Prog.ret_bind,
      MPC.pure_apply] at ih ⊢
    rw [ih]
    rfl

end Local

section Pure

variable [CommRing F]

/-- Result of the resharing for a party, from the draws `P`, `Q` of the recipient. -/
def reshare23Result (l : List (PartyID → Share F)) (P Q : List F) (r i : PartyID) : List (Share F) :=
  if i = r then List.zipWith Share.mk P Q
  else if i = r.next then
    addToA (List.zipWith (fun inp b => ⟨inp.a + inp.b - b, b⟩) (l.map (· i)) P)
      ((List.zipWith (fun (inp : Share F) a => Share.mk a (inp.a - a)) (l.map (· i.next)) Q).map Share.b)
  else
    addToB (List.zipWith (fun inp a => ⟨a, inp.a - a⟩) (l.map (· i)) Q)
      ((List.zipWith (fun (inp : Share F) b => Share.mk (inp.a + inp.b - b) b) (l.map (· i.prev)) P).map Share.a)

theorem isShares_reshare23 {l : List (PartyID → Share F)} {vs P Q : List F} {r : PartyID}
    (h : List.Forall₂ IsShare l vs) (hP : P.length = l.length) (hQ : Q.length = l.length) :
    IsShares (reshare23Result l P Q r) vs := by
  induction h generalizing P Q with
  | nil =>
    obtain rfl : P = [] := by simpa using hP
    obtain rfl : Q = [] := by simpa using hQ
    convert isShares_nil (G := F) using 1
    funext i
    simp [reshare23Result, addToA, addToB]
  | @cons s v l vs hs _ ih =>
    obtain ⟨p, P, rfl⟩ := List.exists_cons_of_length_eq_add_one hP
    obtain ⟨q, Q, rfl⟩ := List.exists_cons_of_length_eq_add_one hQ
    have h1 := ih (by simpa using hP) (by simpa using hQ)
    have h2 : IsShare (fun i => if i = r then Share.mk p q
        else if i = r.next then ⟨(s i).a + (s i).b - p + ((s i.next).a - q), p⟩
        else ⟨q, (s i).a - q + ((s i.prev).a + (s i.prev).b - p)⟩) v := by
      rw [isShare_iff]
      have e := hs.2
      have b0 := hs.b0
      have b1 := hs.b1
      have b2 := hs.b2
      cases r <;> simp [b0, b1, b2, ← e] <;> (try constructor) <;> ring
    convert isShares_cons h2 h1 using 1
    funext i
    unfold reshare23Result
    split_ifs <;> simp [addToA, addToB]

end Pure

variable [CommRing F] [Sample R F] [Codec M (List F)] {st : PartyID → Rep3State R}

theorem spec_reshareFrom2To3Parties {inp : PartyID → Option (List (Share F))}
    {a : PartyID → List (Share F)} {x : List F} {r : PartyID} (ha : IsShares a x)
    (hinp : ∀ i, i ≠ r → inp i = some (a i)) (hst : Corr ty st) :
    Spec (M := M) (fun i => reshareFrom2To3Parties (inp i) x.length r) st
      (fun s st' => IsShares s x ∧ Corr ty st') := by
  obtain ⟨l, rfl, hl⟩ := ha
  have hlen := hl.length_eq
  have hi := hst.id
  have hr0 := hst.rand ID0
  have hr1 := hst.rand ID1
  have hr2 := hst.rand ID2
  simp only [ID0_prev, ID1_prev, ID2_prev] at hr0 hr1 hr2
  refine (Spec.mono (Q := fun s st' => (s = reshare23Result l
    (sampleN (st r).rngs.rand.rng1 x.length).1 (sampleN (st r).rngs.rand.rng2 x.length).1 r) ∧
    (st' = fun i => setRand (st i)
      ⟨if i = r.next then (st i).rngs.rand.rng1
        else (sampleN (α := F) (st i).rngs.rand.rng1 x.length).2,
       if i = r.prev then (st i).rngs.rand.rng2
        else (sampleN (α := F) (st i).rngs.rand.rng2 x.length).2⟩))) ?_ ?_
  · refine Spec3 ?_
    have e1 : ∀ (i : PartyID) (s : Rep3State R), ((l.map (· i)).mapM fun (inp : Share F) => (do
          let beta := inp.a + inp.b
          let b ← withRand (Rep3Rand.draw2 (α := F))
          pure (Share.mk (beta - b) b) : Rep3M R M (Share F))) i s = _ :=
      fun i s => mapM_draw2 (fun inp b => ⟨inp.a + inp.b - b, b⟩) _ i s
    have e2 : ∀ (i : PartyID) (s : Rep3State R), ((l.map (· i)).mapM fun (inp : Share F) => (do
          let beta := inp.a
          let a ← withRand (Rep3Rand.draw1 (α := F))
          pure (Share.mk a (beta - a)) : Rep3M R M (Share F))) i s = _ :=
      fun i s => mapM_draw1 (fun inp a => ⟨a, inp.a - a⟩) _ i s
    have e3 := fun (i : PartyID) (s : Rep3State R) => mapM_pair (F := F) (M := M) x.length i s
    cases r
    · have h1 := hinp ID1 (by decide)
      have h2 := hinp ID2 (by decide)
      simp only [reshareFrom2To3Parties, MPC.bind_apply, stateId, MPC.modifyGet_apply,
        Prog.ret_bind, hi, if_true, e3, reduceCtorEq, if_false, h1, h2, List.length_map, hlen,
        ne_eq, not_true_eq_false, ID0_next, ID1_next, ID2_next, e1, e2, sendAndRecvMany, sendMany,
        recvMany, MPC.recv_apply, MPC.send_apply, ID0_prev, ID1_prev, ID2_prev]
      simp
      constructor
      · funext i; cases i <;> simp [reshare23Result, hr0, hr1, hr2]
      · funext i; cases i <;> simp [hr0, hr1, hr2]
    · have h1 := hinp ID0 (by decide)
      have h2 := hinp ID2 (by decide)
      simp only [reshareFrom2To3Parties, MPC.bind_apply, stateId, MPC.modifyGet_apply,
        Prog.ret_bind, hi, if_true, e3, reduceCtorEq, if_false, h1, h2, List.length_map, hlen,
        ne_eq, not_true_eq_false, ID0_next, ID1_next, ID2_next, e1, e2, sendAndRecvMany, sendMany,
        recvMany, MPC.recv_apply, MPC.send_apply, ID0_prev, ID1_prev, ID2_prev]
      simp
      constructor
      · funext i; cases i <;> simp [reshare23Result, hr0, hr1, hr2]
      · funext i; cases i <;> simp [hr0, hr1, hr2]
    · have h1 := hinp ID0 (by decide)
      have h2 := hinp ID1 (by decide)
      simp only [reshareFrom2To3Parties, MPC.bind_apply, stateId, MPC.modifyGet_apply,
        Prog.ret_bind, hi, if_true, e3, reduceCtorEq, if_false, h1, h2, List.length_map, hlen,
        ne_eq, not_true_eq_false, ID0_next, ID1_next, ID2_next, e1, e2, sendAndRecvMany, sendMany,
        recvMany, MPC.recv_apply, MPC.send_apply, ID0_prev, ID1_prev, ID2_prev]
      simp
      constructor
      · funext i; cases i <;> simp [reshare23Result, hr0, hr1, hr2]
      · funext i; cases i <;> simp [hr0, hr1, hr2]
  · rintro s st' ⟨rfl, rfl⟩
    refine ⟨isShares_reshare23 hl (by simp [hlen]) (by simp [hlen]), hst.setRand ?_⟩
    intro i
    have := hst.rand i
    cases r <;> cases i <;> simp_all

end Rep3

end Verif
