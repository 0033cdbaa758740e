import Verif.Props.HonkSound
import Verif.Props.HonkOpening

/-!
# UltraHonk: soundness from the program to the verdict (C124)

C122 and C123 together: the prover is algebraic, so every point it sends is the commitment to a polynomial that it knows, and the secret of
the reference string is independent of these polynomials.
-/

namespace Verif.Honk

open Acvm (Opcode)
open Polynomial

section

variable {p : Nat} [Fact p.Prime] {G H T : Type} [AddCommGroup G] [Module (ZMod p) G] [AddCommGroup H] [Module (ZMod p) H] [AddCommGroup T]
  [Module (ZMod p) T] [DecidableEq T]

/-- The polynomials behind the commitments: those of the prover for the wires, the read counts, the read tags, the grand product and the
inverses, and for the others the columns of the key.  There are no commitments to shifted columns. -/
noncomputable def boundPolys (n : Nat) (columns₀ : Col → Nat → ZMod p) (P : Col → (ZMod p)[X]) (Z I : (ZMod p)[X]) : Col → (ZMod p)[X]
  | .wl => P .wl
  | .wr => P .wr
  | .wo => P .wo
  | .w4 => P .w4
  | .lookupReadCounts => P .lookupReadCounts
  | .lookupReadTags => P .lookupReadTags
  | .zPerm => Z
  | .lookupInverses => I
  | .wlShift => 0
  | .wrShift => 0
  | .woShift => 0
  | .w4Shift => 0
  | .zPermShift => 0
  | c => ∑ i ∈ Finset.range n, C (columns₀ c i) * X ^ i

theorem boundPolys_natDegree {n : Nat} (columns₀ : Col → Nat → ZMod p) {P : Col → (ZMod p)[X]} (hP : ∀ c, (P c).natDegree < n) {Z I : (ZMod p)[X]}
    (hZ : Z.natDegree < n) (hI : I.natDegree < n) (c : Col) : (boundPolys n columns₀ P Z I c).natDegree ≤ n - 1 := by
  have hk : ∀ c, (∑ i ∈ Finset.range n, C (columns₀ c i) * X ^ i : (ZMod p)[X]).natDegree ≤ n - 1 := fun c =>
    natDegree_sum_le_of_forall_le _ _ fun i hi => (natDegree_C_mul_X_pow_le _ _).trans (by have := Finset.mem_range.1 hi; omega)
  have hP' : ∀ c, (P c).natDegree ≤ n - 1 := fun c => by have := hP c; omega
  have hZ' : Z.natDegree ≤ n - 1 := by omega
  have hI' : I.natDegree ≤ n - 1 := by omega
  have h0 : (0 : (ZMod p)[X]).natDegree ≤ n - 1 := by rw [natDegree_zero]; omega
  cases c <;> simp only [boundPolys] <;> with_reducible first
    | exact hk _
    | exact hP' _
    | exact hZ'
    | exact hI'
    | exact h0

/-- The columns behind the commitments. -/
noncomputable def boundTable (columns₀ : Col → Nat → ZMod p) (P : Col → (ZMod p)[X]) : Col → Nat → ZMod p
  | .wl => (P .wl).coeff
  | .wr => (P .wr).coeff
  | .wo => (P .wo).coeff
  | .w4 => (P .w4).coeff
  | .lookupReadCounts => (P .lookupReadCounts).coeff
  | .lookupReadTags => (P .lookupReadTags).coeff
  | .wlShift => fun i => (P .wl).coeff (i + 1)
  | .wrShift => fun i => (P .wr).coeff (i + 1)
  | .woShift => fun i => (P .wo).coeff (i + 1)
  | .w4Shift => fun i => (P .w4).coeff (i + 1)
  | c => columns₀ c

theorem keyPoly_coeff (n : Nat) (f : Nat → ZMod p) (i : Nat) : (∑ i ∈ Finset.range n, C (f i) * X ^ i : (ZMod p)[X]).coeff i = pad n f i := by
  rw [finsetSum_coeff]
  simp only [coeff_C_mul, coeff_X_pow, mul_ite, mul_one, mul_zero, pad]
  rw [Finset.sum_ite_eq]
  simp

theorem coeff_pad {P : (ZMod p)[X]} {n : Nat} (h : P.natDegree < n) (i : Nat) : P.coeff i = pad n P.coeff i := by
  rw [pad]; split
  · rfl
  · exact coeff_eq_zero_of_natDegree_lt (by omega)

/-- True claims are the values of the columns. -/
theorem claims_columns {n : Nat} {columns₀ : Col → Nat → ZMod p} {P : Col → (ZMod p)[X]} (hP : ∀ c, (P c).natDegree < n) {Z I : (ZMod p)[X]}
    (hZ : Z.natDegree < n) (hI : I.natDegree < n) {us : List (ZMod p)} {evals : Col → ZMod p}
    (h : TrueClaims us (boundPolys n columns₀ P Z I) evals) (c : Col) :
    evals c = extension (pad n (complete n Z.coeff I.coeff (boundTable columns₀ P) c)) us := by
  have hs : ∀ {Q : (ZMod p)[X]}, Q.natDegree < n → ∀ i, Q.coeff (i + 1) = pad n (fun i => Q.coeff (i + 1)) i := fun hQ i => by
    rw [pad]; split
    · rfl
    · exact coeff_eq_zero_of_natDegree_lt (by omega)
  have hs' : ∀ {Q : (ZMod p)[X]}, Q.natDegree < n → ∀ i, Q.coeff (i + 1) = pad n (fun i => if i + 1 < n then Q.coeff (i + 1) else 0) i := fun hQ i => by
    rw [pad]
    by_cases hi : i < n
    · rw [if_pos hi]
      by_cases hi' : i + 1 < n
      · simp only [if_pos hi']
      · simp only [if_neg hi']
        exact coeff_eq_zero_of_natDegree_lt (by omega)
    · rw [if_neg hi]
      exact coeff_eq_zero_of_natDegree_lt (by omega)
  by_cases hc : c ∈ Col.unshifted
  · rw [h.1 c hc]
    congr 1
    funext i
    cases c <;> first
      | exact keyPoly_coeff _ _ i
      | exact coeff_pad (hP _) i
      | exact coeff_pad hZ i
      | exact coeff_pad hI i
      | exact absurd hc (by decide)
  · have hc : c ∈ Col.shifts := by cases c <;> first | decide | exact absurd (by decide) hc
    have h := h.2.1
    have hm : ∀ q ∈ [(Col.wl, Col.wlShift), (.wr, .wrShift), (.wo, .woShift), (.w4, .w4Shift), (.zPerm, .zPermShift)],
      q ∈ Col.toBeShifted.zip Col.shifts := by decide
    cases c <;> first
      | exact absurd hc (by decide)
      | exact (h _ (hm (.wl, .wlShift) (by decide))).trans (congrArg (extension · us) (funext (hs (hP _))))
      | exact (h _ (hm (.wr, .wrShift) (by decide))).trans (congrArg (extension · us) (funext (hs (hP _))))
      | exact (h _ (hm (.wo, .woShift) (by decide))).trans (congrArg (extension · us) (funext (hs (hP _))))
      | exact (h _ (hm (.w4, .w4Shift) (by decide))).trans (congrArg (extension · us) (funext (hs (hP _))))
      | exact (h _ (hm (.zPerm, .zPermShift) (by decide))).trans (congrArg (extension · us) (funext (hs' hZ)))

/-- The proof that consists of the commitments to polynomials, at the secret `τ`, and the values that are sent. -/
noncomputable def algebraicProof (gen : G) (τ : ZMod p) (pairing : List (ZMod p)) (P : Col → (ZMod p)[X]) (Z I : (ZMod p)[X])
    (sumcheck : SumcheckProof (ZMod p) 8) (A : List (ZMod p)[X]) (negs : List (ZMod p)) (Q W : (ZMod p)[X]) : UltraProof (ZMod p) G where
  pairing := pairing
  wl := (P .wl).eval τ • gen
  wr := (P .wr).eval τ • gen
  wo := (P .wo).eval τ • gen
  counts := (P .lookupReadCounts).eval τ • gen
  tags := (P .lookupReadTags).eval τ • gen
  w4 := (P .w4).eval τ • gen
  inverses := I.eval τ • gen
  zPerm := Z.eval τ • gen
  sumcheck := sumcheck
  opening := ⟨A.map fun a => a.eval τ • gen, negs, Q.eval τ • gen, W.eval τ • gen⟩

theorem vk_commitments {ops : List (Opcode (ZMod p))} {inputs : List Nat} {key : Key (ZMod p)} {columns₀ : Col → Nat → ZMod p}
    (h : proverInstance ZMod.val ops inputs [] = .ok (key, columns₀)) {τ : ZMod p} {gen : G} {g2 : H} {crs : List G}
    (hsrs : Srs τ gen g2 (τ • g2) crs) (hn : key.size ≤ crs.length) {vk : UltraVk G} (hvk : createVk ZMod.val crs ops inputs = .ok vk) (c : Col) :
    (c ∈ Col.precomputed → vk.commitments c = (∑ i ∈ Finset.range key.size, C (columns₀ c i) * X ^ i : (ZMod p)[X]).eval τ • gen) ∧
    (c ∉ Col.precomputed → vk.commitments c = 0) := by
  constructor
  · intro hc
    obtain ⟨vk', hvk', -, -, -, hcomm⟩ := createVk_ok hsrs h hn
    obtain rfl := Except.ok.inj (hvk.symm.trans hvk')
    rw [hcomm c hc, commitment_eq hsrs.powers hn columns₀ c, ev_sum, columns_length]
    congr 1
    rw [eval_finsetSum]
    refine Finset.sum_congr rfl fun i hi => ?_
    rw [columns_getD, pad, if_pos (Finset.mem_range.1 hi)]
    simp
  · intro hc
    obtain ⟨k, -, hvk⟩ := Draft.bind_ok.1 hvk
    obtain ⟨cs, hcs, hvk⟩ := Draft.bind_ok.1 hvk
    obtain rfl := Except.ok.inj hvk
    show cs.getD _ 0 = 0
    rw [List.idxOf_eq_length hc]
    have : cs.length = Col.precomputed.length := by
      have hlen : ∀ (l : List Col) (f : Col → Except Err G) (r : List G), l.mapM f = .ok r → r.length = l.length := by
        intro l f
        induction l with
        | nil => intro r hr; obtain rfl := Except.ok.inj hr; rfl
        | cons a l ih =>
          intro r hr
          rw [List.mapM_cons] at hr
          obtain ⟨x, -, hr⟩ := Draft.bind_ok.1 hr
          obtain ⟨xs, hxs, hr⟩ := Draft.bind_ok.1 hr
          obtain rfl := Except.ok.inj hr
          simp [ih xs hxs]
      exact hlen _ _ _ hcs
    exact List.getD_eq_default _ _ (by omega)

/-- An accepted proof has an accepted opening. -/
theorem ultraVerify_opening {e : G →ₗ[ZMod p] H →ₗ[ZMod p] T} {gen : G} {g2 g2x : H} {ch : UltraChallenges (ZMod p) G} {padding : Bool}
    {consts : Params (ZMod p)} {vk : UltraVk G} {proof : UltraProof (ZMod p) G} {pub : List (ZMod p)}
    (h : ultraVerify e gen g2 g2x ch padding consts vk proof pub = .ok true) :
    shpleminiVerify e gen g2 g2x (ch.opening vk (pub ++ proof.pairing) proof.points3 proof.sumcheck)
      (challenges (ch.sumcheck vk (pub ++ proof.pairing) proof.points3) proof.sumcheck.univariates) (ultraCommitments vk proof)
      proof.sumcheck.evaluations proof.opening = .ok true := by
  rw [ultraVerify] at h
  simp only at h
  split at h
  · cases h
  obtain ⟨δ, -, h⟩ := Draft.bind_ok.1 h
  obtain ⟨verified, -, h⟩ := Draft.bind_ok.1 h
  cases verified with
  | false => cases h
  | true => exact h

/-- Let no assignment satisfy the program with the public inputs `pub`.  Whatever polynomials and values an algebraic prover sends, the
verifier, with the key made from the program, does not accept, unless a challenge or the secret of the reference string falls into a small
set that is fixed before it is drawn.  Missing: provers whose polynomials have more coefficients than the circuit has rows, which a longer
reference string allows. -/
theorem C124_sound_partial {ops : List (Opcode (ZMod p))} {inputs : List Nat} {key : Key (ZMod p)} {columns₀ : Col → Nat → ZMod p}
    (h : proverInstance ZMod.val ops inputs [] = .ok (key, columns₀)) {t : Draft (ZMod p)} {base : Nat}
    (ht : Draft.createFull ZMod.val ops inputs [] = .ok (t, base)) (hp : 5 * 2 ^ 28 + t.tag + key.size + 3 * t.vars.length + 30 ≤ p)
    (e : G →ₗ[ZMod p] H →ₗ[ZMod p] T) {gen : G} {g2 : H} (hne : e gen g2 ≠ 0) (padding : Bool)
    (hD : Nat.log2 key.size ≤ virtualLogN padding (Nat.log2 key.size)) (consts : Params (ZMod p))
    (pub pairing : List (ZMod p)) (hpair : pairing.length = 8)
    (hfalse : ¬ ∃ a : Spec.Acir.Assignment p, Spec.Acir.Satisfies a Spec.Acir.noMemory ops ∧ pub = inputs.map a)
    (η : ZMod p) (P : Col → (ZMod p)[X]) (hP : ∀ c, (P c).natDegree < key.size) :
    let D := virtualLogN padding (Nat.log2 key.size)
    ∃ Bβ : Finset (ZMod p), Bβ.card ≤ 103 * key.size ^ 2 ∧ ∀ β ∉ Bβ,
    ∃ Bγ : Finset (ZMod p), Bγ.card ≤ 9 * key.size ∧ ∀ γ ∉ Bγ,
    ∀ Z I : (ZMod p)[X], Z.natDegree < key.size → I.natDegree < key.size →
    ∃ Bα : Finset (ZMod p), Bα.card ≤ 27 ∧ ∀ α ∉ Bα,
    ∃ Bg : Finset (ZMod p), Bg.card ≤ key.size - 1 ∧ ∀ g ∉ Bg,
    ∃ bad : List (ZMod p) → Univariate (ZMod p) 8 → Finset (ZMod p), (∀ us u, (bad us u).card ≤ 7) ∧
    ∀ (sent : List (Univariate (ZMod p) 8)) (us : List (ZMod p)), sent.length = D → us.getD 0 0 ≠ 0 →
      (∀ j < D, us.getD j 0 ∉ bad (us.take j) (sent.getD j 0)) → ∀ evals : Col → ZMod p,
    ∃ Bρ : Finset (ZMod p), Bρ.card ≤ 45 ∧ ∀ ρ ∉ Bρ, ∀ A : List (ZMod p)[X], (∀ a ∈ A, a.natDegree < key.size) →
    ∃ Br : Finset (ZMod p), Br.card ≤ 2 * key.size * 2 ^ us.length + (us.length + 1) ^ 2 * 2 ^ us.length ∧ ∀ r ∉ Br,
    ∀ (negs : List (ZMod p)) (ν : ZMod p), ν ≠ 0 → ∀ Q : (ZMod p)[X], Q.natDegree < key.size →
    ∃ Bz : Finset (ZMod p), Bz.card ≤ key.size + 4 * us.length ∧ ∀ z ∉ Bz, ∀ W : (ZMod p)[X], W.natDegree < key.size →
    ∃ Bτ : Finset (ZMod p), Bτ.card ≤ key.size ∧ ∀ τ ∉ Bτ,
    ∀ crs : List G, Srs τ gen g2 (τ • g2) crs → key.size ≤ crs.length →
    ∀ vk : UltraVk G, createVk ZMod.val crs ops inputs = .ok vk → ∀ ch : UltraChallenges (ZMod p) G,
      let proof := algebraicProof gen τ pairing P Z I ⟨sent, evals⟩ A negs Q W
      let all := pub ++ pairing
      let open' := ch.opening vk all proof.points3 proof.sumcheck
      ch.eta vk all proof.points1 = η → ch.betaGamma vk all proof.points2 = (β, γ) → ch.alpha vk all proof.points3 = α →
      ch.gate vk all proof.points3 = g → challenges (ch.sumcheck vk all proof.points3) sent = us →
      open'.rho = ρ → open'.r proof.opening.folds = r → open'.nu proof.opening.folds negs = ν → open'.z proof.opening.folds negs proof.opening.q = z →
        ultraVerify e gen g2 (τ • g2) ch padding consts vk proof pub ≠ .ok true := by
  intro D
  obtain ⟨d, -, hsize, -⟩ := instance_log h
  have hpos : 0 < key.size := by rw [hsize]; exact Nat.two_pow_pos d
  have h2 : (2 : ZMod p) ≠ 0 := by
    intro h0
    have := (ZMod.natCast_eq_zero_iff 2 p).1 h0
    have := Nat.le_of_dvd (by decide) this
    omega
  -- the opening
  have hopening : ∀ (Z I : (ZMod p)[X]), Z.natDegree < key.size → I.natDegree < key.size → ∀ (us : List (ZMod p)) (evals : Col → ZMod p),
      ¬ TrueClaims us (boundPolys key.size columns₀ P Z I) evals →
      ∃ Bρ : Finset (ZMod p), Bρ.card ≤ 45 ∧ ∀ ρ ∉ Bρ, ∀ A : List (ZMod p)[X], (∀ a ∈ A, a.natDegree < key.size) →
      ∃ Br : Finset (ZMod p), Br.card ≤ 2 * key.size * 2 ^ us.length + (us.length + 1) ^ 2 * 2 ^ us.length ∧ ∀ r ∉ Br,
      ∀ (negs : List (ZMod p)) (ν : ZMod p), ν ≠ 0 → ∀ Q : (ZMod p)[X], Q.natDegree < key.size →
      ∃ Bz : Finset (ZMod p), Bz.card ≤ key.size + 4 * us.length ∧ ∀ z ∉ Bz, ∀ W : (ZMod p)[X], W.natDegree < key.size →
      ∃ Bτ : Finset (ZMod p), Bτ.card ≤ key.size ∧ ∀ τ ∉ Bτ, ∀ ch : PcsChallenges (ZMod p) G,
        let proof : PcsProof (ZMod p) G := ⟨A.map fun a => a.eval τ • gen, negs, Q.eval τ • gen, W.eval τ • gen⟩
        ch.rho = ρ → ch.r proof.folds = r → ch.nu proof.folds proof.evals = ν → ch.z proof.folds proof.evals proof.q = z →
          shpleminiVerify e gen g2 (τ • g2) ch us (fun c => (boundPolys key.size columns₀ P Z I c).eval τ • gen) evals proof ≠ .ok true := by
    intro Z I hZ hI us evals hf
    have hdeg := boundPolys_natDegree columns₀ hP hZ hI
    obtain ⟨Bρ, hBρ, hρ⟩ := C123_opening h2 e hne us _ hdeg evals hf
    refine ⟨Bρ, hBρ, fun ρ hr A hA => ?_⟩
    obtain ⟨Br, hBr, hr⟩ := hρ ρ hr A fun a ha => by have := hA a ha; omega
    refine ⟨Br, hBr.trans (by rw [show 2 * (key.size - 1) + 2 = 2 * key.size by omega]), fun r hr' negs ν hν Q hQ => ?_⟩
    obtain ⟨Bz, hBz, hz⟩ := hr r hr' negs ν hν Q (by omega)
    refine ⟨Bz, hBz.trans (by omega), fun z hz' W hW => ?_⟩
    obtain ⟨Bτ, hBτ, hτ⟩ := hz z hz' W (by omega)
    exact ⟨Bτ, hBτ.trans (by omega), hτ⟩
  obtain ⟨Bβ, hBβ, hβ⟩ := C122_sound (G := G) h ht hp e gen g2 padding hD consts η (boundTable columns₀ P) (fun c hc => by
    cases c <;> first | rfl | exact absurd hc (by decide)) (fun i _ => ⟨rfl, rfl⟩) pub pairing hpair hfalse
  refine ⟨Bβ, hBβ, fun β hb => ?_⟩
  obtain ⟨Bγ, hBγ, hγ⟩ := hβ β hb
  refine ⟨Bγ, hBγ, fun γ hc Z I hZ hI => ?_⟩
  -- from the opening to the verdict
  have hend : ∀ (sent : List (Univariate (ZMod p) 8)) (us : List (ZMod p)) (evals : Col → ZMod p) (ρ : ZMod p) (A : List (ZMod p)[X]) (r : ZMod p)
      (negs : List (ZMod p)) (ν : ZMod p) (Q : (ZMod p)[X]) (z : ZMod p) (W : (ZMod p)[X]) (τ : ZMod p),
      (∀ ch : PcsChallenges (ZMod p) G,
        let proof : PcsProof (ZMod p) G := ⟨A.map fun a => a.eval τ • gen, negs, Q.eval τ • gen, W.eval τ • gen⟩
        ch.rho = ρ → ch.r proof.folds = r → ch.nu proof.folds proof.evals = ν → ch.z proof.folds proof.evals proof.q = z →
          shpleminiVerify e gen g2 (τ • g2) ch us (fun c => (boundPolys key.size columns₀ P Z I c).eval τ • gen) evals proof ≠ .ok true) →
      ∀ crs : List G, Srs τ gen g2 (τ • g2) crs → key.size ≤ crs.length →
      ∀ vk : UltraVk G, createVk ZMod.val crs ops inputs = .ok vk → ∀ ch : UltraChallenges (ZMod p) G,
        let proof := algebraicProof gen τ pairing P Z I ⟨sent, evals⟩ A negs Q W
        let all := pub ++ pairing
        let open' := ch.opening vk all proof.points3 proof.sumcheck
        challenges (ch.sumcheck vk all proof.points3) sent = us →
        open'.rho = ρ → open'.r proof.opening.folds = r → open'.nu proof.opening.folds negs = ν → open'.z proof.opening.folds negs proof.opening.q = z →
          ultraVerify e gen g2 (τ • g2) ch padding consts vk proof pub ≠ .ok true := by
    intro sent us evals ρ A r negs ν Q z W τ hrej crs hsrs hn vk hvk ch proof all open' hus h1 h3 h4 h5 hv
    have hv := ultraVerify_opening hv
    have hcomm : ultraCommitments vk proof = fun c => (boundPolys key.size columns₀ P Z I c).eval τ • gen := by
      funext c
      have hk := vk_commitments h hsrs hn hvk c
      cases c <;> simp only [boundPolys, ultraCommitments] <;> first
        | exact hk.1 (by decide)
        | rw [hk.2 (by decide), eval_zero, zero_smul]
        | rfl
    rw [hcomm] at hv
    refine hrej open' h1 h3 h4 h5 ?_
    rw [← hus]
    exact hv
  by_cases hZ0 : Z.coeff 0 = 0
  swap
  · refine ⟨∅, by simp, fun α _ => ⟨∅, by simp, fun g _ => ⟨fun _ _ => ∅, fun _ _ => by simp, fun sent us _ hu _ evals => ?_⟩⟩⟩
    obtain ⟨Bρ, hBρ, hρ⟩ := hopening Z I hZ hI us evals fun hT => hZ0 (hT.2.2 hu .zPerm (by decide))
    refine ⟨Bρ, hBρ, fun ρ hr A hA => ?_⟩
    obtain ⟨Br, hBr, hr⟩ := hρ ρ hr A hA
    refine ⟨Br, hBr, fun r hr' negs ν hν Q hQ => ?_⟩
    obtain ⟨Bz, hBz, hz⟩ := hr r hr' negs ν hν Q hQ
    refine ⟨Bz, hBz, fun z hz' W hW => ?_⟩
    obtain ⟨Bτ, hBτ, hτ⟩ := hz z hz' W hW
    refine ⟨Bτ, hBτ, fun τ ht' crs hsrs hn vk hvk ch => ?_⟩
    intro proof all open' _ _ _ _
    exact hend sent us evals ρ A r negs ν Q z W τ (hτ τ ht') crs hsrs hn vk hvk ch
  obtain ⟨Bα, hBα, hα⟩ := hγ γ hc Z.coeff I.coeff hZ0
  refine ⟨Bα, hBα, fun α ha => ?_⟩
  obtain ⟨Bg, hBg, hg⟩ := hα α ha
  refine ⟨Bg, hBg, fun g hg' => ?_⟩
  obtain ⟨bad, hbad, hs⟩ := hg g hg'
  refine ⟨bad, hbad, fun sent us hsl hu hgood evals => ?_⟩
  by_cases hT : TrueClaims us (boundPolys key.size columns₀ P Z I) evals
  · refine ⟨∅, by simp, fun ρ _ A _ => ⟨∅, by simp, fun r _ negs ν _ Q _ => ⟨∅, by simp, fun z _ W _ => ⟨∅, by simp, fun τ _ crs _ _ vk hvk ch => ?_⟩⟩⟩⟩
    intro proof all open' h1 h3 h4 h5 hus _ _ _ _ hv
    have hul : us.length = D := by rw [← hus, challenges, List.length_map, List.length_range, hsl]
    obtain ⟨j, hj, hb⟩ := hs crs vk hvk (τ • g2) ch proof rfl h1 h3 h4 h5 (fun c => by
      show evals c = extension _ ((challenges (ch.sumcheck vk all proof.points3) sent).take D)
      rw [hus, ← hul, List.take_length]
      exact claims_columns hP hZ hI hT c) hv
    have hb : (challenges (ch.sumcheck vk all proof.points3) sent).getD j 0 ∈
      bad ((challenges (ch.sumcheck vk all proof.points3) sent).take j) (sent.getD j 0) := hb
    rw [hus] at hb
    exact hgood j hj hb
  · obtain ⟨Bρ, hBρ, hρ⟩ := hopening Z I hZ hI us evals hT
    refine ⟨Bρ, hBρ, fun ρ hr A hA => ?_⟩
    obtain ⟨Br, hBr, hr⟩ := hρ ρ hr A hA
    refine ⟨Br, hBr, fun r hr' negs ν hν Q hQ => ?_⟩
    obtain ⟨Bz, hBz, hz⟩ := hr r hr' negs ν hν Q hQ
    refine ⟨Bz, hBz, fun z hz' W hW => ?_⟩
    obtain ⟨Bτ, hBτ, hτ⟩ := hz z hz' W hW
    refine ⟨Bτ, hBτ, fun τ ht' crs hsrs hn vk hvk ch => ?_⟩
    intro proof all open' _ _ _ _
    exact hend sent us evals ρ A r negs ν Q z W τ (hτ τ ht') crs hsrs hn vk hvk ch

end

/-! ## Example -/

namespace SoundDemo

open BuildDemo (p start)

/-- The hypotheses hold of a program whose public input has at most three bits, the public input nine and a prover who puts one value into
every wire. -/
example := C124_sound_partial inst_ok full_ok bound (LinearMap.mul (ZMod p) (ZMod p)) (gen := 1) (g2 := 1) (by decide +kernel) false (by rw [size]; decide) start [9]
  (List.replicate 8 0) rfl wrong 2 (fun _ => X) (fun _ => natDegree_X_le.trans_lt (by rw [size]; decide))

/-- All the small sets together have far fewer elements than the field, when there are six rounds. -/
example : 103 * inst.1.size ^ 2 + 9 * inst.1.size + 27 + (inst.1.size - 1) + 6 * 7 + 1 + 45 + (2 * inst.1.size * 2 ^ 6 + 7 ^ 2 * 2 ^ 6) + 1 +
    (inst.1.size + 4 * 6) + inst.1.size < p / 2 ^ 12 := by rw [size]; decide

/-- There is a reference string. -/
example : Srs (5 : ZMod p) (1 : ZMod p) (1 : ZMod p) (5 • (1 : ZMod p)) EndDemo.crs := by
  have := EndDemo.srs
  exact ⟨this.powers, by rw [this.second]; decide⟩

end SoundDemo

end Verif.Honk
