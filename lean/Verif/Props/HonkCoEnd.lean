import Verif.Honk.CoUltraDrivers

/-!
# Collaborative UltraHonk from the program to the verdict (C121)
-/

namespace Verif.Honk

open Rep3 Plonk
open Acvm (Opcode)

/-- The challenges `β` and `γ` are not among the few ones for which something is divided by zero.  They depend only on the commitments to
the columns that the parties start with. -/
structure GoodStart {F G : Type} [Field F] [DecidableEq F] [AddCommGroup G] [Module F G] (ch : UltraChallenges F G) (consts : Params F)
    (crs : List G) (vk : UltraVk G) (key : Key F) (table : Col → Nat → F) (β γ : F) : Prop where
  challenges : ch.betaGamma vk key.publicInputs
    ([Col.wl, .wr, .wo, .lookupReadCounts, .lookupReadTags, .w4].map fun c => commitment crs key.size (table c)) = (β, γ)
  delta : ∃ δ, publicInputDelta β γ key.publicInputs key.publicOffset = .ok δ
  copies : ∀ i < key.size, ∀ j, wiresOf table j i + key.sigma j i * β + γ ≠ 0
  lookups : ∀ i < key.size, table .qLookup i = 1 ∨ table .lookupReadTags i = 1 →
    readTerm { consts with beta := β, gamma := γ } (fun c => table c i) ≠ 0 ∧ writeTerm { consts with beta := β, gamma := γ } (fun c => table c i) ≠ 0

/-- The same for the later challenges. -/
structure GoodRest {F G : Type} [Field F] (ch : UltraChallenges F G) (vk : UltraVk G) (pub : List F) (proof : UltraProof F G) : Prop where
  rounds : ∀ u ∈ challenges (ch.sumcheck vk pub proof.points3) proof.sumcheck.univariates, ∀ i : Nat, 1 ≤ i → i < 8 → u ≠ (i : F)
  points : GoodPoints (challenges (ch.sumcheck vk pub proof.points3) proof.sumcheck.univariates)
    ((ch.opening vk pub proof.points3 proof.sumcheck).r proof.opening.folds)
    ((ch.opening vk pub proof.points3 proof.sumcheck).z proof.opening.folds proof.opening.evals proof.opening.q)

section

variable {p : Nat} [Fact p.Prime] {G H T : Type} [AddCommGroup G] [Module (ZMod p) G] [AddCommGroup H] [Module (ZMod p) H] [AddCommGroup T]
  [Module (ZMod p) T] [DecidableEq T]

theorem verify_honest (hp : 2 ^ 14 ≤ p) (hp' : p ≤ 2 ^ 256) {ops : List (Opcode (ZMod p))} {inputs : List Nat} {witness : List (ZMod p)}
    (hne : witness ≠ []) (hsat : Spec.Acir.Satisfies (fun v => witness.getD v 0) Spec.Acir.noMemory ops)
    {τ : ZMod p} {gen : G} {g2 g2x : H} {crs : List G} (hsrs : Srs τ gen g2 g2x crs) (e : G →ₗ[ZMod p] H →ₗ[ZMod p] T)
    (ch : UltraChallenges (ZMod p) G) (padding : Bool) (consts : Params (ZMod p)) {vk : UltraVk G}
    (hvk : createVk ZMod.val crs ops inputs = .ok vk) {key : Key (ZMod p)} {table : Col → Nat → ZMod p}
    (h : proverInstance ZMod.val ops inputs witness = .ok (key, table)) (hn : key.size ≤ crs.length)
    {β γ δ : ZMod p} {z : Nat → ZMod p} (hstart : GoodStart ch consts crs vk key table β γ)
    (hδ : publicInputDelta β γ key.publicInputs key.publicOffset = .ok δ) (hz : grandProduct key (wiresOf table) β γ = .ok z)
    {d : Nat} (hsize : key.size = 2 ^ d) {proof : UltraProof (ZMod p) G}
    (hpair : proof.pairing = key.publicInputs.drop (key.publicInputs.length - 8))
    (hpoints : proof.points3 = [commitment crs key.size (table .wl), commitment crs key.size (table .wr), commitment crs key.size (table .wo),
      commitment crs key.size (table .lookupReadCounts), commitment crs key.size (table .lookupReadTags), commitment crs key.size (table .w4),
      commitment crs key.size (lookupInverses β γ table), commitment crs key.size z])
    (hh : HonestDecider e gen g2 g2x (ultraParams consts (ch.eta vk key.publicInputs proof.points1) β γ δ)
      (ch.alpha vk key.publicInputs proof.points3) (ch.gate vk key.publicInputs proof.points3) (ch.sumcheck vk key.publicInputs proof.points3)
      (ch.opening vk key.publicInputs proof.points3) crs d (virtualLogN padding d) (complete key.size z (lookupInverses β γ table) table)
      proof.sumcheck proof.opening)
    (hrest : GoodRest ch vk key.publicInputs proof) :
    ultraVerify e gen g2 g2x ch padding consts vk proof (inputs.map fun v => witness.getD v 0) = .ok true := by
  have hpub := C119_public hp hp' hne hsat h
  have hlog : Nat.log2 key.size = d := by rw [hsize, Nat.log2_two_pow]
  obtain ⟨vk', hvk', v1, v2, v3, v4⟩ := createVk_ok hsrs h hn
  obtain rfl := Except.ok.inj (hvk.symm.trans hvk')
  have happ : (inputs.map fun v => witness.getD v 0) ++ proof.pairing = key.publicInputs := by
    rw [hpair, hpub]
    congr 1
    exact List.drop_left' (by simp)
  have hβγ : ch.betaGamma vk key.publicInputs proof.points2 = (β, γ) := by
    rw [← hstart.challenges]
    congr 1
    have := congrArg (List.take 6) hpoints
    exact this
  simp only [UltraProof.points3, UltraProof.points2, UltraProof.points1, List.cons_append, List.nil_append, List.cons.injEq, and_true] at hpoints
  obtain ⟨c1, c2, c3, c4, c5, c6, c7, c8⟩ := hpoints
  have hsatf := C119_satisfied hp hp' hne hsat h { consts with
    eta1 := ch.eta vk key.publicInputs proof.points1
    eta2 := ch.eta vk key.publicInputs proof.points1 * ch.eta vk key.publicInputs proof.points1
    eta3 := ch.eta vk key.publicInputs proof.points1 * ch.eta vk key.publicInputs proof.points1 * ch.eta vk key.publicInputs proof.points1 }
    hz (by rw [← hpub]; exact hδ) hstart.copies hstart.lookups
  have hshift := instance_shifted h (inv := lookupInverses β γ table) hz
  rw [ultraVerify]
  simp only [happ, v2, ne_eq, not_true_eq_false, if_false, v3, hβγ, hδ, v1, hlog]
  have hcommit : ∀ c ∈ Col.precomputed ++ Col.witness, ultraCommitments vk proof c =
      commitment crs key.size (complete key.size z (lookupInverses β γ table) table c) := by
    intro c hc
    rcases List.mem_append.1 hc with hc | hc
    · have e1 := v4 c hc
      revert e1
      simp only [Col.precomputed, Col.all, List.take_succ_cons, List.take_zero, List.mem_cons, List.not_mem_nil, or_false] at hc
      rcases hc with rfl | rfl | rfl | rfl | rfl | rfl | rfl | rfl | rfl | rfl | rfl | rfl | rfl | rfl | rfl | rfl | rfl | rfl | rfl | rfl | rfl |
        rfl | rfl | rfl | rfl | rfl | rfl | rfl <;> exact id
    · simp only [Col.witness, Col.all, List.drop_succ_cons, List.drop_zero, List.take_succ_cons, List.take_zero, List.mem_cons, List.not_mem_nil,
        or_false] at hc
      rcases hc with rfl | rfl | rfl | rfl | rfl | rfl | rfl | rfl
      · exact c1
      · exact c2
      · exact c3
      · exact c6
      · exact c8
      · exact c7
      · exact c4
      · exact c5
  rw [hsize] at hsatf hshift hcommit hh
  refine Draft.bind_ok.2 ⟨δ, rfl, Draft.bind_ok.2 ⟨true, hh.sumcheck.accepted hsatf hrest.rounds, ?_⟩⟩
  simp only [if_true]
  rw [shpleminiVerify_congr e gen g2 g2x _ _ hcommit]
  exact hh.opening hshift hrest.points

/-- Three parties hold the public columns and Rep3 shares of the other columns, for a witness that satisfies the program.  If no random
value is zero, they all make the same proof, and the verifier accepts it with the public values of the witness. -/
theorem C121_rep3 (hp : 2 ^ 14 ≤ p) (hp' : p ≤ 2 ^ 256) {ops : List (Opcode (ZMod p))} {inputs : List Nat} {witness : List (ZMod p)}
    (hne : witness ≠ []) (hsat : Spec.Acir.Satisfies (fun v => witness.getD v 0) Spec.Acir.noMemory ops)
    {τ : ZMod p} {gen : G} {g2 g2x : H} {crs : List G} (hsrs : Srs τ gen g2 g2x crs) (e : G →ₗ[ZMod p] H →ₗ[ZMod p] T)
    (ch : UltraChallenges (ZMod p) G) (hr : ∀ vk pub points s folds, (ch.opening vk pub points s).r folds ≠ 0) (padding : Bool)
    (consts : Params (ZMod p)) {vk : UltraVk G} (hvk : createVk ZMod.val crs ops inputs = .ok vk) {key : Key (ZMod p)}
    {table : Col → Nat → ZMod p} (h : proverInstance ZMod.val ops inputs witness = .ok (key, table)) (hn : key.size ≤ crs.length)
    (hD : Nat.log2 key.size ≤ virtualLogN padding (Nat.log2 key.size)) {β γ : ZMod p} (hstart : GoodStart ch consts crs vk key table β γ)
    {R M : Type} [Sample R (ZMod p)] [SampleVec R (ZMod p)] [Codec M (List (ZMod p))] [Codec M (List G)] [Codec M (List (List G))]
    {ev : PartyID → List (Share (ZMod p)) → ZMod p → Share (ZMod p)} (hev : ∀ i, Rep3Eval (ev i)) {q : Col → Nat → ZMod p}
    (hq : ∀ c : Col, c.shared = false → ∀ row, q c row = table c row) {sh : PartyID → Col → Nat → Share (ZMod p)}
    (hsh : ∀ c ∈ sharedStart, ∀ row, IsShare (fun i => sh i c row) (table c row)) {ty : A2BType} {st : PartyID → Rep3State R}
    (hst : Corr ty st) (h0 : ¬ DrawsZero (ZMod p) st (24 * key.size + 6)) :
    Ensures (M := M) (fun i => coUltraProve (rep3Driver i) (rep3Sum i) (rep3Pcs i (ev i)) ch padding consts crs vk key q (sh i)) st fun r _ =>
      ∃ proof, (∀ i, r i = (proof, inputs.map fun v => witness.getD v 0)) ∧
        proof.sumcheck.univariates.length = virtualLogN padding (Nat.log2 key.size) ∧
        (GoodRest ch vk ((inputs.map fun v => witness.getD v 0) ++ proof.pairing) proof →
          ultraVerify e gen g2 g2x ch padding consts vk proof (inputs.map fun v => witness.getD v 0) = .ok true) := by
  obtain ⟨d, hd, hsize, hlog⟩ := instance_log h
  rw [hlog] at hD
  obtain ⟨δ, hδ⟩ := hstart.delta
  obtain ⟨z, hz⟩ := instance_product h β γ
  have hpub := C119_public hp hp' hne hsat h
  refine Spec.ensures ((coUltra_is (M := M) (Inv := RInv (ZMod p) ty st (24 * key.size + 6)) (I := Corr ty) h0
    (cosim_rep3 (M := M) (ty := ty) (24 * key.size + 6) id) (fun _ => pcsSim_rep3_inv hev _) (sumSim_rep3 (R := R) (M := M) (ty := ty))
    (pcsSim_rep3 hev) (fun _ h => h.1) (fun j k st hjk h => ⟨h.1, h.2.imp fun i hi => ⟨hi.1, by omega⟩⟩) (distinct_val (by omega)) hsrs e ch hr
    padding consts vk h hn hd hsize hD hq hsh rfl hstart.challenges hδ hz hstart.copies rfl ⟨hst, 0, rfl, by omega⟩).mono ?_)
  rintro _ _ ⟨s, o, rfl, hh⟩
  refine ⟨⟨key.publicInputs.drop (key.publicInputs.length - 8), commitment crs key.size (table .wl),
    commitment crs key.size (table .wr), commitment crs key.size (table .wo), commitment crs key.size (table .lookupReadCounts),
    commitment crs key.size (table .lookupReadTags), commitment crs key.size (table .w4), commitment crs key.size (lookupInverses β γ table),
    commitment crs key.size z, s, o⟩, fun i => ?_, hlog.symm ▸ hh.sumcheck.rounds, fun hrest => verify_honest hp hp' hne hsat hsrs e ch padding consts hvk h hn hstart hδ hz hsize rfl rfl hh ?_⟩
  · refine congrArg (Prod.mk _) ?_
    rw [hpub]
    exact List.take_left' (by simp)
  · have e1 : (inputs.map fun v => witness.getD v 0) ++ key.publicInputs.drop (key.publicInputs.length - 8) = key.publicInputs := by
      rw [hpub]
      congr 1
      exact List.drop_left' (by simp)
    dsimp only at hrest
    rwa [e1] at hrest

/-- The same for any number of parties with Shamir shares and enough preprocessed pairs, none of which is a sharing of zero. -/
theorem C121_shamir (hp : 2 ^ 14 ≤ p) (hp' : p ≤ 2 ^ 256) {ops : List (Opcode (ZMod p))} {inputs : List Nat} {witness : List (ZMod p)}
    (hne : witness ≠ []) (hsat : Spec.Acir.Satisfies (fun v => witness.getD v 0) Spec.Acir.noMemory ops)
    {τ : ZMod p} {gen : G} {g2 g2x : H} {crs : List G} (hsrs : Srs τ gen g2 g2x crs) (e : G →ₗ[ZMod p] H →ₗ[ZMod p] T)
    (ch : UltraChallenges (ZMod p) G) (hr : ∀ vk pub points s folds, (ch.opening vk pub points s).r folds ≠ 0) (padding : Bool)
    (consts : Params (ZMod p)) {vk : UltraVk G} (hvk : createVk ZMod.val crs ops inputs = .ok vk) {key : Key (ZMod p)}
    {table : Col → Nat → ZMod p} (h : proverInstance ZMod.val ops inputs witness = .ok (key, table)) (hn : key.size ≤ crs.length)
    (hD : Nat.log2 key.size ≤ virtualLogN padding (Nat.log2 key.size)) {β γ : ZMod p} (hstart : GoodStart ch consts crs vk key table β γ)
    {n t : Nat} {R M : Type} [Sample R (ZMod p)] [Codec M (List (ZMod p))] [Codec M G] [Codec M (List G)]
    {ev : Fin n → List (ZMod p) → ZMod p → ZMod p} (hev : ∀ i, ShamirEval (ev i)) {q : Col → Nat → ZMod p}
    (hq : ∀ c : Col, c.shared = false → ∀ row, q c row = table c row) {sh : Fin n → Col → Nat → ZMod p}
    (hsh : ∀ c ∈ sharedStart, ∀ row, IsShamir (ZMod p) t (fun i => sh i c row) (table c row)) {st : Fin n → Shamir.ShamirState n R (ZMod p)}
    (hst : Shamir.ShCorr t st) {pairs : List (Fin n → ZMod p × ZMod p)} (hpairs : Shamir.Buffered t (fun i => (st i).rng) pairs)
    (hl : 24 * key.size + 6 ≤ pairs.length) (h0 : ¬ ∃ x ∈ pairs, IsShamir (ZMod p) t (fun i => (x i).1) 0) :
    Ensures (M := M) (fun i => coUltraProve shamirDriver shamirSum (shamirPcs (ev i)) ch padding consts crs vk key q (sh i)) st fun r _ =>
      ∃ proof, (∀ i, r i = (proof, inputs.map fun v => witness.getD v 0)) ∧
        proof.sumcheck.univariates.length = virtualLogN padding (Nat.log2 key.size) ∧
        (GoodRest ch vk ((inputs.map fun v => witness.getD v 0) ++ proof.pairing) proof →
          ultraVerify e gen g2 g2x ch padding consts vk proof (inputs.map fun v => witness.getD v 0) = .ok true) := by
  obtain ⟨d, hd, hsize, hlog⟩ := instance_log h
  rw [hlog] at hD
  obtain ⟨δ, hδ⟩ := hstart.delta
  obtain ⟨z, hz⟩ := instance_product h β γ
  have hpub := C119_public hp hp' hne hsat h
  refine Spec.ensures ((coUltra_is (M := M) (Inv := SInv t pairs) (I := Shamir.ShCorr t) h0
    (cosim_shamir (M := M) (R := R) (t := t) (buf₀ := pairs)) (fun _ => pcsSim_shamir_inv hev fun _ h => h.1)
    (sumSim_shamir (R := R) (M := M) (t := t)) (pcsSim_shamir hev) (fun _ h => h.1)
    (fun j k st hjk h => ⟨h.1, h.2.imp fun i hi => ⟨hi.1, by omega, hi.2.2⟩⟩) (distinct_val (by omega)) hsrs e ch hr
    padding consts vk h hn hd hsize hD hq hsh rfl hstart.challenges hδ hz hstart.copies rfl ⟨hst, pairs, hpairs, hl, fun _ h => h⟩).mono ?_)
  rintro _ _ ⟨s, o, rfl, hh⟩
  refine ⟨⟨key.publicInputs.drop (key.publicInputs.length - 8), commitment crs key.size (table .wl),
    commitment crs key.size (table .wr), commitment crs key.size (table .wo), commitment crs key.size (table .lookupReadCounts),
    commitment crs key.size (table .lookupReadTags), commitment crs key.size (table .w4), commitment crs key.size (lookupInverses β γ table),
    commitment crs key.size z, s, o⟩, fun i => ?_, hlog.symm ▸ hh.sumcheck.rounds, fun hrest => verify_honest hp hp' hne hsat hsrs e ch padding consts hvk h hn hstart hδ hz hsize rfl rfl hh ?_⟩
  · refine congrArg (Prod.mk _) ?_
    rw [hpub]
    exact List.take_left' (by simp)
  · have e1 : (inputs.map fun v => witness.getD v 0) ++ key.publicInputs.drop (key.publicInputs.length - 8) = key.publicInputs := by
      rw [hpub]
      congr 1
      exact List.drop_left' (by simp)
    dsimp only at hrest
    rwa [e1] at hrest

end

/-! ## A concrete case -/

namespace CoEndDemo

open BuildDemo (p ops satisfied start)
open EndDemo (inst inst_ok size ch crs srs deltaRun deltaRun_ok getOk getOk_ok)

attribute [local irreducible] EndDemo.inst

/-- What is sent. -/
inductive Msg where
  | f (x : List (ZMod p))
  | ff (x : List (List (ZMod p)))
  | e (x : ZMod p)
  | n (x : List Nat)

instance msgF : Codec Msg (List (ZMod p)) := ⟨.f, fun | .f x => some x | _ => none, fun _ => rfl⟩
instance msgFF : Codec Msg (List (List (ZMod p))) := ⟨.ff, fun | .ff x => some x | _ => none, fun _ => rfl⟩
instance msgE : Codec Msg (ZMod p) := ⟨.e, fun | .e x => some x | _ => none, fun _ => rfl⟩
instance msgN : Codec Msg (List Nat) := ⟨.n, fun | .n x => some x | _ => none, fun _ => rfl⟩

instance onesF : Sample CoDemo.Ones (ZMod p) := ⟨fun r => (1, r)⟩
instance onesVecF : SampleVec CoDemo.Ones (ZMod p) := ⟨fun r n => (List.replicate n 1, r), fun r n => by simp⟩

theorem ones_draws (n : Nat) : ¬ DrawsZero (ZMod p) CoDemo.onesStates n := by
  rintro ⟨k, -, h⟩
  exact absurd h (show (1 + 1 + 1 : ZMod p) ≠ 0 by decide)

/-- Shares of a value: the party `ID0` has it, or the parties have it split. -/
def shareOf (v : ZMod p) (i : PartyID) : Share (ZMod p) := Rep3.addPublic (Rep3.promoteToTrivialShare i (v - 5)) 5 i

theorem isShare_shareOf (v : ZMod p) : IsShare (shareOf v) v := by
  have := (IsShare.promote (v - 5)).addPublic 5
  rwa [sub_add_cancel] at this

theorem rep3Eval : ∃ ev : PartyID → List (Share (ZMod p)) → ZMod p → Share (ZMod p), ∀ i, Rep3Eval (ev i) := by
  have h : ∀ (l : List (Share (ZMod p))) (y : ZMod p), ∃ r, l ≠ [] → ∃ threads, Verif.Poly.EvalPoly Verif.Poly.rep3Ops threads l y r := by
    intro l y
    by_cases hl : l = []
    · exact ⟨0, fun h => absurd hl h⟩
    · exact (Verif.Poly.evalPoly_exists Verif.Poly.rep3Ops 3 hl y).imp fun _ h _ => ⟨3, h⟩
  choose f hf using h
  exact ⟨fun _ => f, fun _ l x hl => hf l x hl⟩

theorem shamirEval : ∃ ev : Fin 3 → List (ZMod p) → ZMod p → ZMod p, ∀ i, ShamirEval (ev i) := by
  have h : ∀ (l : List (ZMod p)) (y : ZMod p), ∃ r, l ≠ [] → ∃ threads, Verif.Poly.EvalPoly Verif.Poly.shamirOps threads l y r := by
    intro l y
    by_cases hl : l = []
    · exact ⟨0, fun h => absurd hl h⟩
    · exact (Verif.Poly.evalPoly_exists Verif.Poly.shamirOps 3 hl y).imp fun _ h _ => ⟨3, h⟩
  choose f hf using h
  exact ⟨fun _ => f, fun _ l x hl => hf l x hl⟩

theorem points : PointsDistinct (ZMod p) 3 := by
  intro i j hi hj h
  interval_cases i <;> interval_cases j <;> first | rfl | exact absurd h (by decide)

theorem shamirStates (m : Nat) : ∃ (st : Fin 3 → Shamir.ShamirState 3 CoDemo.Ones (ZMod p)) (pairs : List (Fin 3 → ZMod p × ZMod p)),
    Shamir.ShCorr 1 st ∧ Shamir.Buffered 1 (fun i => (st i).rng) pairs ∧ m ≤ pairs.length ∧
    ¬ ∃ q ∈ pairs, IsShamir (ZMod p) 1 (fun i => (q i).1) 0 := by
  obtain ⟨g, l, h1, hg, h2⟩ := Shamir.spec_preprocessingNew (M := Msg) (Seed := Nat) (R := CoDemo.Ones) (F := ZMod p) (t := 1)
    (amount := 10) points (by decide) (by decide) (fun i => i.val + 5) (fun _ => ())
  obtain ⟨st, -, h, -⟩ := Shamir.ofPreprocessing_spec hg
  have hp : ∀ x ∈ List.replicate m (fun _ : Fin 3 => ((1, 1) : ZMod p × ZMod p)), IsPair 1 x := by
    intro x hx
    rw [List.eq_of_mem_replicate hx]
    exact ⟨1, IsShamir.const _ _, IsShamir.const _ _⟩
  refine ⟨Shamir.setBuf st (List.replicate m fun _ => (1, 1)), _, h.setBuf hp,
    ⟨fun _ => rfl, fun _ => rfl, hp⟩, by rw [List.length_replicate], ?_⟩
  rintro ⟨q, hq, h0⟩
  rw [List.eq_of_mem_replicate hq] at h0
  obtain ⟨c, hc, hs⟩ := h0
  have h1 := hs 0
  have h2 := hs 1
  simp only [Verif.polyAt, Finset.sum_range_succ, Finset.sum_range_zero, hc] at h1 h2
  norm_num at h1 h2
  rw [← h1] at h2
  revert h2
  decide

theorem goodStart (vk : UltraVk (ZMod p)) : GoodStart ch start crs vk inst.1 inst.2 3 11 where
  challenges := rfl
  delta := ⟨_, (getOk_ok deltaRun_ok : deltaRun = .ok (getOk 0 deltaRun))⟩
  copies := by rw [size]; exact EndDemo.copies
  lookups := by rw [size]; exact EndDemo.lookups

theorem goodRest (vk : UltraVk (ZMod p)) (pub : List (ZMod p)) (proof : UltraProof (ZMod p) (ZMod p))
    (hl : proof.sumcheck.univariates.length = virtualLogN false (Nat.log2 inst.1.size)) : GoodRest ch vk pub proof := by
  have hlog : virtualLogN false (Nat.log2 inst.1.size) = 6 := by rw [size]; rfl
  have := EndDemo.good vk pub proof (hl.trans hlog)
  exact ⟨this.rounds, this.points⟩

theorem vk_ok : ∃ vk : UltraVk (ZMod p), createVk ZMod.val crs ops [2] = .ok vk :=
  (createVk_ok srs inst_ok (by rw [size]; decide)).imp fun _ h => h.1

/-- Three parties prove the example, and the verifier accepts with the public input 6. -/
example : ∃ (vk : UltraVk (ZMod p)) (ev : PartyID → List (Share (ZMod p)) → ZMod p → Share (ZMod p)), createVk ZMod.val crs ops [2] = .ok vk ∧
    Ensures (M := Msg) (fun i => coUltraProve (rep3Driver i) (rep3Sum i) (rep3Pcs i (ev i)) ch false start crs vk inst.1 inst.2
      (fun c row => shareOf (inst.2 c row) i)) CoDemo.onesStates fun r _ => ∀ i, (r i).2 = [6] ∧
        ultraVerify (LinearMap.mul (ZMod p) (ZMod p)) 1 1 5 ch false start vk (r i).1 [6] = .ok true := by
  obtain ⟨vk, hvk⟩ := vk_ok
  obtain ⟨ev, hev⟩ := rep3Eval
  refine ⟨vk, ev, hvk, Ensures.mono (C121_rep3 (by decide) (by decide) (by decide) satisfied srs (LinearMap.mul (ZMod p) (ZMod p)) ch
    (fun _ _ _ _ _ => by show (8 : ZMod p) ≠ 0; decide) false start hvk inst_ok (by rw [size]; decide) le_rfl (goodStart vk) hev (fun _ _ _ => rfl)
    (fun _ _ _ => isShare_shareOf _) CoDemo.corr_ones (ones_draws _)) ?_⟩
  rintro r _ ⟨proof, hr, hl, h⟩ i
  rw [hr i]
  exact ⟨rfl, h (goodRest _ _ _ hl)⟩

/-- The same with Shamir shares. -/
example : ∃ (vk : UltraVk (ZMod p)) (ev : Fin 3 → List (ZMod p) → ZMod p → ZMod p) (st : Fin 3 → Shamir.ShamirState 3 CoDemo.Ones (ZMod p)),
    createVk ZMod.val crs ops [2] = .ok vk ∧ Shamir.ShCorr 1 st ∧
    Ensures (M := Msg) (fun i => coUltraProve shamirDriver shamirSum (shamirPcs (ev i)) ch false start crs vk inst.1 inst.2 inst.2) st
      fun r _ => ∀ i, (r i).2 = [6] ∧ ultraVerify (LinearMap.mul (ZMod p) (ZMod p)) 1 1 5 ch false start vk (r i).1 [6] = .ok true := by
  obtain ⟨vk, hvk⟩ := vk_ok
  obtain ⟨ev, hev⟩ := shamirEval
  obtain ⟨st, pairs, h1, h2, h3, h4⟩ := shamirStates (24 * inst.1.size + 6)
  refine ⟨vk, ev, st, hvk, h1, Ensures.mono (C121_shamir (by decide) (by decide) (by decide) satisfied srs (LinearMap.mul (ZMod p) (ZMod p)) ch
    (fun _ _ _ _ _ => by show (8 : ZMod p) ≠ 0; decide) false start hvk inst_ok (by rw [size]; decide) le_rfl (goodStart vk) hev (fun _ _ _ => rfl)
    (fun _ _ _ => IsShamir.const _ _) h1 h2 h3 h4) ?_⟩
  rintro r _ ⟨proof, hr, hl, h⟩ i
  rw [hr i]
  exact ⟨rfl, h (goodRest _ _ _ hl)⟩

end CoEndDemo

end Verif.Honk
