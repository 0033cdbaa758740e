import Verif.Props.HonkFull

/-!
# Runs of the prover and of the verifier
-/

namespace Verif.Honk

section

variable {F G : Type} [Field F] [DecidableEq F] [AddCommGroup G] [Module F G]

theorem commit_col {H : Type} [AddCommGroup H] [Module F H] {τ : F} {gen : G} {g2 g2x : H} {crs : List G} (hsrs : Srs τ gen g2 g2x crs) {n : Nat}
    (hn : n ≤ crs.length) (f : Nat → F) : (plainPcs (F := F) (G := G)).commit crs ((List.range n).map f) = .ok (commitment crs n f) := by
  rw [plain_commit hsrs.powers (by simpa using hn), commitment_eq hsrs.powers hn (fun _ => f) .wl]
  rfl

theorem commit_len {crs : List G} {n : Nat} {f : Nat → F} {c : G}
    (h : (plainPcs (F := F) (G := G)).commit crs ((List.range n).map f) = .ok c) : n ≤ crs.length := by
  by_contra hn
  simp only [plainPcs, List.length_map, List.length_range, if_pos (not_le.1 hn)] at h
  cases h

omit [DecidableEq F] in
theorem withW4_self {n : Nat} {table : Col → Nat → F} (h : table .w4Shift = fun i => if i + 1 < n then table .w4 (i + 1) else 0) :
    withW4 n (table .w4) table = table := by
  funext c
  cases c <;> first | rfl | exact h.symm

/-- What an honest prover has computed. -/
structure UltraRun (ch : UltraChallenges F G) (padding : Bool) (consts : Params F) (crs : List G) (vk : UltraVk G) (key : Key F)
    (table : Col → Nat → F) (proof : UltraProof F G) (δ : F) (z : Nat → F) : Prop where
  wl : proof.wl = commitment crs key.size (table .wl)
  wr : proof.wr = commitment crs key.size (table .wr)
  wo : proof.wo = commitment crs key.size (table .wo)
  counts : proof.counts = commitment crs key.size (table .lookupReadCounts)
  tags : proof.tags = commitment crs key.size (table .lookupReadTags)
  w4 : proof.w4 = commitment crs key.size (table .w4)
  inverses : proof.inverses = commitment crs key.size
    (lookupInverses (ch.betaGamma vk key.publicInputs proof.points2).1 (ch.betaGamma vk key.publicInputs proof.points2).2 table)
  delta : publicInputDelta (ch.betaGamma vk key.publicInputs proof.points2).1 (ch.betaGamma vk key.publicInputs proof.points2).2 key.publicInputs
    key.publicOffset = .ok δ
  product : grandProduct key (wiresOf table) (ch.betaGamma vk key.publicInputs proof.points2).1
    (ch.betaGamma vk key.publicInputs proof.points2).2 = .ok z
  zPerm : proof.zPerm = commitment crs key.size z
  sumcheck : sumcheckProve (ultraParams consts (ch.eta vk key.publicInputs proof.points1) (ch.betaGamma vk key.publicInputs proof.points2).1
      (ch.betaGamma vk key.publicInputs proof.points2).2 δ) (alphaPowers (ch.alpha vk key.publicInputs proof.points3))
    (gateChallenges (ch.gate vk key.publicInputs proof.points3) (virtualLogN padding (Nat.log2 key.size)))
    (ch.sumcheck vk key.publicInputs proof.points3) key.size (virtualLogN padding (Nat.log2 key.size))
    (columns key.size (complete key.size z (lookupInverses (ch.betaGamma vk key.publicInputs proof.points2).1
      (ch.betaGamma vk key.publicInputs proof.points2).2 table) table)) = .ok proof.sumcheck
  opening : ∀ d, key.size = 2 ^ d → openTable (ch.opening vk key.publicInputs proof.points3 proof.sumcheck) crs d
    (challenges (ch.sumcheck vk key.publicInputs proof.points3) proof.sumcheck.univariates)
    (complete key.size z (lookupInverses (ch.betaGamma vk key.publicInputs proof.points2).1
      (ch.betaGamma vk key.publicInputs proof.points2).2 table) table) = .ok proof.opening

theorem ultraProve_run {H : Type} [AddCommGroup H] [Module F H] {τ : F} {gen : G} {g2 g2x : H} {ch : UltraChallenges F G} {padding : Bool}
    {consts : Params F} {crs : List G} (hsrs : Srs τ gen g2 g2x crs) {vk : UltraVk G} {key : Key F} {table : Col → Nat → F}
    (hw4 : table .w4Shift = fun i => if i + 1 < key.size then table .w4 (i + 1) else 0) {proof : UltraProof F G} {pub : List F}
    (h : ultraProve ch padding consts crs vk key table = .ok (proof, pub)) :
    key.size ≤ crs.length ∧ proof.pairing = key.publicInputs.drop (key.publicInputs.length - 8) ∧
      pub = key.publicInputs.take (key.publicInputs.length - 8) ∧
      ∃ δ z, UltraRun ch padding consts crs vk key table proof δ z := by
  rw [ultraProve] at h
  obtain ⟨wl, h1, h⟩ := Draft.bind_ok.1 h
  have hn := commit_len h1
  have hc := fun f => commit_col hsrs hn f
  simp only [hc] at h h1
  cases h1
  obtain ⟨wr, h1, h⟩ := Draft.bind_ok.1 h
  cases h1
  obtain ⟨wo, h1, h⟩ := Draft.bind_ok.1 h
  cases h1
  obtain ⟨w4, h1, h⟩ := Draft.bind_ok.1 h
  obtain rfl : table .w4 = w4 := Except.ok.inj h1
  simp only [withW4_self hw4] at h
  obtain ⟨counts, h1, h⟩ := Draft.bind_ok.1 h
  cases h1
  obtain ⟨tags, h1, h⟩ := Draft.bind_ok.1 h
  cases h1
  obtain ⟨w4, h1, h⟩ := Draft.bind_ok.1 h
  cases h1
  obtain ⟨inv, h1, h⟩ := Draft.bind_ok.1 h
  cases h1
  obtain ⟨δ, hδ, h⟩ := Draft.bind_ok.1 h
  obtain ⟨z, hz, h⟩ := Draft.bind_ok.1 h
  obtain ⟨zp, h1, h⟩ := Draft.bind_ok.1 h
  cases h1
  obtain ⟨s, hs, h⟩ := Draft.bind_ok.1 h
  obtain ⟨o, ho, h⟩ := Draft.bind_ok.1 h
  cases h
  refine ⟨hn, rfl, rfl, δ, z, rfl, rfl, rfl, rfl, rfl, rfl, rfl, hδ, hz, rfl, hs, fun d hd => ?_⟩
  rw [hd, Nat.log2_two_pow] at ho
  rw [openTable, hd]
  exact ho

/-- The verifier uses only the commitments to the precomputed columns and to those of the witness. -/
theorem shpleminiVerify_congr {H T : Type} [AddCommGroup H] [Module F H] [AddCommGroup T] [Module F T] [DecidableEq T] (e : G →ₗ[F] H →ₗ[F] T)
    (gen : G) (g2 g2x : H) (ch : PcsChallenges F G) (us : List F) {comm comm' : Col → G} (h : ∀ c ∈ Col.precomputed ++ Col.witness, comm c = comm' c)
    (evals : Col → F) (proof : PcsProof F G) :
    shpleminiVerify e gen g2 g2x ch us comm evals proof = shpleminiVerify e gen g2 g2x ch us comm' evals proof := by
  have h1 : ((Col.precomputed ++ Col.witness).map fun c => (comm c, evals c)) = (Col.precomputed ++ Col.witness).map fun c => (comm' c, evals c) :=
    List.map_congr_left fun c hc => by rw [h c hc]
  have h2 : List.zipWith (fun c s => (comm c, evals s)) Col.toBeShifted Col.shifts =
      List.zipWith (fun c s => (comm' c, evals s)) Col.toBeShifted Col.shifts := by
    simp only [Col.toBeShifted, Col.shifts, List.zipWith_cons_cons, List.zipWith_nil_right, h .wl (by decide), h .wr (by decide), h .wo (by decide),
      h .w4 (by decide), h .zPerm (by decide)]
  rw [shpleminiVerify, shpleminiVerify, h1, h2]

/-- The verification key. -/
theorem createVk_ok {H : Type} [AddCommGroup H] [Module F H] {τ : F} {gen : G} {g2 g2x : H} {crs : List G} (hsrs : Srs τ gen g2 g2x crs)
    {toNat : F → Nat} {ops : List (Acvm.Opcode F)} {inputs : List Nat} {witness : List F} {key : Key F} {table : Col → Nat → F}
    (h : proverInstance toNat ops inputs witness = .ok (key, table)) (hn : key.size ≤ crs.length) :
    ∃ vk : UltraVk G, createVk toNat crs ops inputs = .ok vk ∧ vk.logSize = Nat.log2 key.size ∧ vk.numPublic = key.publicInputs.length ∧
      vk.publicOffset = key.publicOffset ∧ ∀ c ∈ Col.precomputed, vk.commitments c = commitment crs key.size (table c) := by
  obtain ⟨key', table', h1, h2, h3, h4, h5⟩ := C119_key h
  have hm : ∀ l : List Col, l.mapM (fun c => (plainPcs (F := F) (G := G)).commit crs (columns key'.size table' c)) =
      .ok (l.map fun c => commitment crs key'.size (table' c)) := fun l => by
    induction l with
    | nil => rfl
    | cons c l ih => rw [List.mapM_cons, columns, commit_col hsrs (by omega), ih]; rfl
  refine ⟨_, Draft.bind_ok.2 ⟨_, h1, Draft.bind_ok.2 ⟨_, hm _, rfl⟩⟩, by rw [h2], h4, h3, fun c hc => ?_⟩
  show (Col.precomputed.map fun c => commitment crs key'.size (table' c)).getD (Col.precomputed.idxOf c) 0 = _
  rw [List.getD_eq_getElem?_getD, List.getElem?_map, List.getElem?_idxOf hc]
  show commitment crs key'.size (table' c) = _
  rw [h2, h5 c hc]

end

end Verif.Honk
