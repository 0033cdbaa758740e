import Verif.Honk.UltraRun

/-!
# UltraHonk from the program to the verdict (C120)
-/

namespace Verif.Honk

open Acvm (Opcode)

/-- The challenges of a run are not among the few ones for which something is divided by zero, or for which the sumcheck leaves out
more than it should.  `pub` are all public inputs, with the pairing point. -/
structure GoodRun {F G : Type} [Field F] [DecidableEq F] [AddCommGroup G] [Module F G] (ch : UltraChallenges F G) (consts : Params F)
    (vk : UltraVk G) (key : Key F) (table : Col → Nat → F) (D : Nat) (pub : List F) (proof : UltraProof F G) : Prop where
  copies : ∀ i < key.size, ∀ j, wiresOf table j i + key.sigma j i * (ch.betaGamma vk pub proof.points2).1 + (ch.betaGamma vk pub proof.points2).2 ≠ 0
  lookups : ∀ i < key.size, table .qLookup i = 1 ∨ table .lookupReadTags i = 1 →
    let p := { consts with beta := (ch.betaGamma vk pub proof.points2).1, gamma := (ch.betaGamma vk pub proof.points2).2 }
    readTerm p (fun c => table c i) ≠ 0 ∧ writeTerm p (fun c => table c i) ≠ 0
  rounds : ∀ u ∈ challenges (ch.sumcheck vk pub proof.points3) proof.sumcheck.univariates, ∀ i : Nat, 1 ≤ i → i < 8 → u ≠ (i : F)
  skips : ∀ δ z, publicInputDelta (ch.betaGamma vk pub proof.points2).1 (ch.betaGamma vk pub proof.points2).2 pub key.publicOffset = .ok δ →
    grandProduct key (wiresOf table) (ch.betaGamma vk pub proof.points2).1 (ch.betaGamma vk pub proof.points2).2 = .ok z →
    ∀ j < D, ∀ l < 2 ^ (D - j - 1),
      let row := partialRow (fun c => pad key.size (complete key.size z
        (lookupInverses (ch.betaGamma vk pub proof.points2).1 (ch.betaGamma vk pub proof.points2).2 table) table c))
        ((challenges (ch.sumcheck vk pub proof.points3) proof.sumcheck.univariates).take j)
      SkipsNothing (ultraParams consts (ch.eta vk pub proof.points1) (ch.betaGamma vk pub proof.points2).1
        (ch.betaGamma vk pub proof.points2).2 δ) (row (2 * l)) (row (2 * l + 1))
  points : GoodPoints (challenges (ch.sumcheck vk pub proof.points3) proof.sumcheck.univariates)
    ((ch.opening vk pub proof.points3 proof.sumcheck).r proof.opening.folds)
    ((ch.opening vk pub proof.points3 proof.sumcheck).z proof.opening.folds proof.opening.evals proof.opening.q)

section

variable {p : Nat} [Fact p.Prime] {G H T : Type} [AddCommGroup G] [Module (ZMod p) G] [AddCommGroup H] [Module (ZMod p) H] [AddCommGroup T]
  [Module (ZMod p) T] [DecidableEq T]

theorem distinct_val {k : Nat} (hk : k ≤ p) : Distinct (ZMod p) k := fun i hi j hj h => by
  have := congrArg ZMod.val h
  rwa [ZMod.val_natCast_of_lt (by omega), ZMod.val_natCast_of_lt (by omega)] at this

theorem instance_log {F : Type} [Field F] [DecidableEq F] {toNat : F → Nat} {ops : List (Opcode F)} {inputs : List Nat} {witness : List F} {key : Key F} {table : Col → Nat → F}
    (h : proverInstance toNat ops inputs witness = .ok (key, table)) : ∃ d, 2 ≤ d ∧ key.size = 2 ^ d ∧ Nat.log2 key.size = d := by
  obtain ⟨t, base, r, h1, h2, -⟩ := instance_ok h
  obtain ⟨⟨d, hd⟩, hs⟩ := C109_size h2
  rw [Draft.rows_length] at hs
  refine ⟨d, ?_, hd, by rw [hd, Nat.log2_two_pow]⟩
  by_contra hlt
  have : 2 ^ d ≤ 2 ^ 1 := Nat.pow_le_pow_right (by omega) (by omega)
  omega

theorem instance_shifted {F : Type} [Field F] [DecidableEq F] {toNat : F → Nat} {ops : List (Opcode F)} {inputs : List Nat} {witness : List F} {key : Key F} {table : Col → Nat → F}
    (h : proverInstance toNat ops inputs witness = .ok (key, table)) {β γ : F} {z inv : Nat → F} (hz : grandProduct key (wiresOf table) β γ = .ok z) :
    Shifted key.size (complete key.size z inv table) := by
  obtain ⟨t, base, r, h1, h2, h3, h4, rfl⟩ := instance_ok h
  constructor
  · intro q hq i hi
    simp only [List.mem_cons, List.not_mem_nil, or_false] at hq
    rcases hq with rfl | rfl | rfl | rfl | rfl <;> rfl
  · intro c hc
    simp only [List.mem_cons, List.not_mem_nil, or_false] at hc
    rcases hc with rfl | rfl | rfl | rfl | rfl
    · exact full_first h2 0
    · exact full_first h2 1
    · exact full_first h2 2
    · exact full_first h2 3
    · obtain ⟨s, d, hk⟩ := createKey_ok h2
      have hrows : (t.full base).rows ≠ [] := fun e => by
        have := Draft.rows_length (t := t) (base := base)
        rw [e] at this
        simp at this
      obtain ⟨z', hz', h0, -⟩ := grandProduct_ok hk hrows (wiresOf (keyTable t key dummyEntries r)) β γ
      obtain rfl := Except.ok.inj (hz.symm.trans hz')
      exact h0

/-- Completeness of UltraHonk.  A prover whose witness satisfies the program makes a proof that the verifier accepts, with the
verification key made from the program alone, and with the public values of the witness as public inputs. -/
theorem C120_accepted (hp : 2 ^ 14 ≤ p) (hp' : p ≤ 2 ^ 256) {ops : List (Opcode (ZMod p))} {inputs : List Nat} {witness : List (ZMod p)}
    (hne : witness ≠ []) (hsat : Spec.Acir.Satisfies (fun v => witness.getD v 0) Spec.Acir.noMemory ops)
    {τ : ZMod p} {gen : G} {g2 g2x : H} {crs : List G} (hsrs : Srs τ gen g2 g2x crs) (e : G →ₗ[ZMod p] H →ₗ[ZMod p] T)
    (ch : UltraChallenges (ZMod p) G) (padding : Bool) (consts : Params (ZMod p)) {vk : UltraVk G}
    (hvk : createVk ZMod.val crs ops inputs = .ok vk) {key : Key (ZMod p)} {table : Col → Nat → ZMod p}
    (h : proverInstance ZMod.val ops inputs witness = .ok (key, table)) (hD : Nat.log2 key.size ≤ virtualLogN padding (Nat.log2 key.size))
    {proof : UltraProof (ZMod p) G} {pub : List (ZMod p)} (hprove : ultraProve ch padding consts crs vk key table = .ok (proof, pub))
    (hgood : GoodRun ch consts vk key table (virtualLogN padding (Nat.log2 key.size)) (pub ++ proof.pairing) proof) :
    pub = inputs.map (fun v => witness.getD v 0) ∧ ultraVerify e gen g2 g2x ch padding consts vk proof pub = .ok true := by
  obtain ⟨d, hd, hsize, hlog⟩ := instance_log h
  have hpub := C119_public hp hp' hne hsat h
  have hw4 : table .w4Shift = fun i => if i + 1 < key.size then table .w4 (i + 1) else 0 := by
    obtain ⟨t, base, r, -, -, -, -, rfl⟩ := instance_ok h
    rfl
  obtain ⟨hn, hpair, rfl, δ, z, run⟩ := ultraProve_run hsrs hw4 hprove
  have happ : key.publicInputs.take (key.publicInputs.length - 8) ++ proof.pairing = key.publicInputs := by rw [hpair, List.take_append_drop]
  obtain ⟨vk', hvk', v1, v2, v3, v4⟩ := createVk_ok hsrs h hn
  obtain rfl := Except.ok.inj (hvk.symm.trans hvk')
  refine ⟨?_, ?_⟩
  · rw [hpub]
    exact List.take_left' (by simp)
  rw [happ] at hgood
  generalize hη : ch.eta vk key.publicInputs proof.points1 = η at *
  generalize hβγ : ch.betaGamma vk key.publicInputs proof.points2 = βγ at *
  have hdelta := run.delta
  have hprod := run.product
  have hsum := run.sumcheck
  have hopen := run.opening d hsize
  rw [hβγ] at hdelta hprod hsum hopen
  rw [hη] at hsum
  have hsatf := C119_satisfied hp hp' hne hsat h { consts with eta1 := η, eta2 := η * η, eta3 := η * η * η } hprod (by rw [← hpub]; exact hdelta)
    (by have := hgood.copies; rwa [hβγ] at this) (by have := hgood.lookups; rw [hβγ] at this; exact this)
  have hshift := instance_shifted h (inv := lookupInverses βγ.1 βγ.2 table) hprod
  have hskip := hgood.skips δ z (by rw [hβγ]; exact hdelta) (by rw [hβγ]; exact hprod)
  have hrounds := hgood.rounds
  have hpoints := hgood.points
  rw [hη, hβγ] at hskip
  rw [hlog] at hD hsum hskip
  have hd8 : Distinct (ZMod p) 8 := distinct_val (by omega)
  rw [ultraVerify]
  simp only [happ, v2, ne_eq, not_true_eq_false, if_false, v3, hη, hβγ, hdelta, v1, hlog]
  have hcommit : ∀ c ∈ Col.precomputed ++ Col.witness, ultraCommitments vk proof c =
      commitment crs key.size (complete key.size z (lookupInverses βγ.1 βγ.2 table) table c) := by
    intro c hc
    rcases List.mem_append.1 hc with hc | hc
    · have e1 := v4 c hc
      revert e1
      simp only [Col.precomputed, Col.all, List.take_succ_cons, List.take_zero, List.mem_cons, List.not_mem_nil, or_false] at hc
      rcases hc with rfl | rfl | rfl | rfl | rfl | rfl | rfl | rfl | rfl | rfl | rfl | rfl | rfl | rfl | rfl | rfl | rfl | rfl | rfl | rfl | rfl |
        rfl | rfl | rfl | rfl | rfl | rfl | rfl <;> exact id
    · have e1 := run.inverses
      rw [hβγ] at e1
      simp only [Col.witness, Col.all, List.drop_succ_cons, List.drop_zero, List.take_succ_cons, List.take_zero, List.mem_cons, List.not_mem_nil,
        or_false] at hc
      rcases hc with rfl | rfl | rfl | rfl | rfl | rfl | rfl | rfl
      · exact run.wl
      · exact run.wr
      · exact run.wo
      · exact run.w4
      · exact run.zPerm
      · exact e1
      · exact run.counts
      · exact run.tags
  rw [hsize] at hsatf hsum hshift hskip hcommit hn
  have hacc := C103_complete hd8 _ _ _ _ d (virtualLogN padding d) hd hD _ hsatf proof.sumcheck hsum hrounds hskip
  refine Draft.bind_ok.2 ⟨δ, rfl, Draft.bind_ok.2 ⟨true, hacc, ?_⟩⟩
  simp only [if_true]
  rw [shpleminiVerify_congr e gen g2 g2x _ _ hcommit]
  refine C117_decider hd8 hsrs e _ _ _ _ d (virtualLogN padding d) hd hD hn _ hshift proof.sumcheck hsum _ proof.opening ?_ hpoints
  rw [← hsize]
  exact hopen

/-- The verification key can be made, and the prover makes a proof, if the reference string is long enough for the circuit, the challenge `r`
is not zero, and the public inputs do not make the denominator of their fraction zero. -/
theorem C120_proves (hp : 2 ^ 14 ≤ p) {ops : List (Opcode (ZMod p))} {inputs : List Nat} {witness : List (ZMod p)}
    {τ : ZMod p} {gen : G} {g2 g2x : H} {crs : List G} (hsrs : Srs τ gen g2 g2x crs)
    (ch : UltraChallenges (ZMod p) G) (padding : Bool) (consts : Params (ZMod p)) {key : Key (ZMod p)} {table : Col → Nat → ZMod p}
    (h : proverInstance ZMod.val ops inputs witness = .ok (key, table)) (hD : Nat.log2 key.size ≤ virtualLogN padding (Nat.log2 key.size))
    (hn : key.size ≤ crs.length) (hr : ∀ vk pub points s folds, (ch.opening vk pub points s).r folds ≠ 0)
    (hdelta : ∀ vk, ∃ δ, publicInputDelta (ch.betaGamma vk key.publicInputs
        ([Col.wl, .wr, .wo, .lookupReadCounts, .lookupReadTags, .w4].map fun c => commitment crs key.size (table c))).1
      (ch.betaGamma vk key.publicInputs
        ([Col.wl, .wr, .wo, .lookupReadCounts, .lookupReadTags, .w4].map fun c => commitment crs key.size (table c))).2
      key.publicInputs key.publicOffset = .ok δ) :
    ∃ (vk : UltraVk G) (proof : UltraProof (ZMod p) G) (pub : List (ZMod p)), createVk ZMod.val crs ops inputs = .ok vk ∧
      ultraProve ch padding consts crs vk key table = .ok (proof, pub) := by
  obtain ⟨d, hd, hsize, hlog⟩ := instance_log h
  have hw4 : table .w4Shift = fun i => if i + 1 < key.size then table .w4 (i + 1) else 0 := by
    obtain ⟨t, base, r, -, -, -, -, rfl⟩ := instance_ok h
    rfl
  obtain ⟨vk, hvk, -⟩ := createVk_ok hsrs h hn
  have hc := fun f => commit_col hsrs hn f
  obtain ⟨δ, hδ⟩ := hdelta vk
  simp only [List.map_cons, List.map_nil] at hδ
  have hz : ∀ β γ, ∃ z, grandProduct key (wiresOf table) β γ = .ok z := fun β γ => by
    obtain ⟨t, base, r, h1, h2, h3, h4, rfl⟩ := instance_ok h
    exact C105_runs h2 (fun e => by
      have := Draft.rows_length (t := t) (base := base)
      rw [e] at this
      simp at this) _ β γ
  let points : List G := [commitment crs key.size (table .wl), commitment crs key.size (table .wr), commitment crs key.size (table .wo),
    commitment crs key.size (table .lookupReadCounts), commitment crs key.size (table .lookupReadTags), commitment crs key.size (table .w4)]
  let βγ := ch.betaGamma vk key.publicInputs points
  obtain ⟨z, hz⟩ := hz βγ.1 βγ.2
  let points3 := points ++ [commitment crs key.size (lookupInverses βγ.1 βγ.2 table), commitment crs key.size z]
  let full := complete key.size z (lookupInverses βγ.1 βγ.2 table) table
  have hd8 : Distinct (ZMod p) 8 := distinct_val (by omega)
  rw [hlog] at hD
  obtain ⟨s, hs, hs2, -⟩ := C103_evaluations hd8 (ultraParams consts (ch.eta vk key.publicInputs (points.take 3)) βγ.1 βγ.2 δ)
    (ch.alpha vk key.publicInputs points3) (ch.gate vk key.publicInputs points3) (ch.sumcheck vk key.publicInputs points3) d
    (virtualLogN padding d) hd hD full
  obtain ⟨o, ho⟩ := C117_succeeds hsrs (ch.opening vk key.publicInputs points3 s) d
    (challenges (ch.sumcheck vk key.publicInputs points3) s.univariates) hd (by simpa [challenges, hs2] using hD) (by omega) full (hr _ _ _ _)
  refine ⟨vk, ⟨key.publicInputs.drop (key.publicInputs.length - 8), commitment crs key.size (table .wl), commitment crs key.size (table .wr),
    commitment crs key.size (table .wo), commitment crs key.size (table .lookupReadCounts), commitment crs key.size (table .lookupReadTags),
    commitment crs key.size (table .w4), commitment crs key.size (lookupInverses βγ.1 βγ.2 table), commitment crs key.size z, s, o⟩,
    key.publicInputs.take (key.publicInputs.length - 8), hvk, ?_⟩
  rw [ultraProve]
  refine Draft.bind_ok.2 ⟨_, hc _, Draft.bind_ok.2 ⟨_, hc _, Draft.bind_ok.2 ⟨_, hc _, Draft.bind_ok.2 ⟨table .w4, rfl, ?_⟩⟩⟩⟩
  simp only [withW4_self hw4]
  refine Draft.bind_ok.2 ⟨_, hc _, Draft.bind_ok.2 ⟨_, hc _, Draft.bind_ok.2 ⟨_, hc _, Draft.bind_ok.2 ⟨_, hc _, Draft.bind_ok.2 ⟨δ, hδ,
    Draft.bind_ok.2 ⟨z, hz, Draft.bind_ok.2 ⟨_, hc _, ?_⟩⟩⟩⟩⟩⟩⟩
  rw [hlog]
  refine Draft.bind_ok.2 ⟨s, ?_, Draft.bind_ok.2 ⟨o, ?_, rfl⟩⟩
  · rw [← hsize] at hs
    exact hs
  · rw [openTable, ← hsize] at ho
    exact ho

end

/-! ## A concrete case -/

section

variable {F : Type} [Field F]

theorem tidy_skips (p : Params F) {a b : Col → F} (ha : Tidy a) (hb : Tidy b) : SkipsNothing p a b := by
  constructor
  · intro h1 h2 t s hs
    obtain ⟨a1, a2, a3, a4, a5, a6⟩ := ha.perm h1
    obtain ⟨b1, b2, b3, b4, b5, b6⟩ := hb.perm h2
    simp only [List.mem_cons, List.not_mem_nil, or_false] at hs
    rcases hs with rfl | rfl
    · simp [Subrel.value, h1, h2, a1, a2, a3, a4, a5, a6, b1, b2, b3, b4, b5, b6]
    · simp [Subrel.value, a6, b6]
  · intro h1 h2 h3 h4 t s hs
    obtain ⟨a1, a2⟩ := ha.lookup h1 h3
    obtain ⟨b1, b2⟩ := hb.lookup h2 h4
    simp only [List.mem_cons, List.not_mem_nil, or_false] at hs
    rcases hs with rfl | rfl | rfl
    · simp [Subrel.value, h1, h2, a1, a2, b1, b2]
    · simp [Subrel.value, h1, h2, h3, h4]
    · simp [Subrel.value, a1, b1]

/-- With all challenges zero, the partly evaluated rows are rows of the table. -/
theorem partialRow_zeros (table : Col → Nat → F) {us : List F} (hu : ∀ u ∈ us, u = 0) (l : Nat) (c : Col) :
    partialRow table us l c = table c (2 ^ us.length * l) := by
  have hg : ∀ j, us.getD j 0 = 0 := fun j => by
    rw [List.getD_eq_getElem?_getD]
    cases hj : us[j]? with
    | none => rfl
    | some u => exact hu u (List.mem_of_getElem? hj)
  rw [partialRow, extension, Finset.sum_eq_single 0]
  · rw [Nat.zero_add, Finset.prod_eq_one fun j _ => by rw [hg]; simp, mul_one]
  · intro i hi h0
    obtain ⟨j, hj⟩ := Nat.exists_testBit_of_ne_zero h0
    have hj' : j < us.length := by
      by_contra hn
      rw [Nat.testBit_lt_two_pow ((Finset.mem_range.1 hi).trans_le (Nat.pow_le_pow_right (by omega) (not_lt.1 hn)))] at hj
      cases hj
    rw [Finset.prod_eq_zero (Finset.mem_range.2 hj') (by rw [if_pos hj, hg]), mul_zero]
  · intro h
    simp at h

end

namespace EndDemo

open BuildDemo (p ops satisfied start)

/-- The run that makes the key and the columns of the prover. -/
def instRun : Except Err (Key (ZMod p) × (Col → Nat → ZMod p)) := proverInstance ZMod.val ops [2] [2, 3, 6]

/-- The result of a run that succeeds. -/
def getOk {α : Type} (d : α) : Except Err α → α
  | .ok x => x
  | .error _ => d

theorem getOk_ok {α : Type} {d : α} {x : Except Err α} (h : x.isOk = true) : x = .ok (getOk d x) := by
  cases x with
  | ok k => rfl
  | error e => cases h

/-- The key and the columns of the prover. -/
def inst : Key (ZMod p) × (Col → Nat → ZMod p) := getOk (BuildDemo.key, BuildDemo.table) instRun

theorem instRun_ok : instRun.isOk = true := by decide +kernel

theorem inst_ok : proverInstance ZMod.val ops [2] [2, 3, 6] = .ok (inst.1, inst.2) := by
  have h : instRun = .ok inst := getOk_ok instRun_ok
  rw [Prod.mk.eta, ← h]
  rfl

attribute [local irreducible] inst

theorem size : inst.1.size = 2 ^ 6 := by decide +kernel

/-- The run that makes the grand product. -/
def zRun : Except Err (Nat → ZMod p) := grandProduct inst.1 (wiresOf inst.2) 3 11

/-- The grand product. -/
def z : Nat → ZMod p := getOk (fun _ => 0) zRun

theorem zRun_ok : zRun.isOk = true := by decide +kernel

theorem z_ok : grandProduct inst.1 (wiresOf inst.2) 3 11 = .ok z := (getOk_ok zRun_ok : zRun = .ok z)

theorem perm_tidy : ∀ i < 2 ^ 6, z i = (if i + 1 < 2 ^ 6 then z (i + 1) else 0) →
    inst.2 .sigma1 i = inst.2 .id1 i ∧ inst.2 .sigma2 i = inst.2 .id2 i ∧ inst.2 .sigma3 i = inst.2 .id3 i ∧ inst.2 .sigma4 i = inst.2 .id4 i ∧
      inst.2 .lagrangeFirst i = 0 ∧ inst.2 .lagrangeLast i = 0 := by decide +kernel

theorem lookup_tidy : ∀ i < 2 ^ 6, inst.2 .qLookup i = 0 → inst.2 .lookupReadCounts i = 0 →
    inst.2 .lookupReadTags i = 0 ∧ lookupInverses 3 11 inst.2 i = 0 := by decide +kernel

theorem tidy (i : Nat) : Tidy fun c => pad inst.1.size (complete inst.1.size z (lookupInverses 3 11 inst.2) inst.2 c) i := by
  rw [size]
  have hp := perm_tidy i
  have hl := lookup_tidy i
  revert hp hl
  generalize lookupInverses 3 11 inst.2 = inv
  generalize inst.2 = t
  generalize z = z'
  intro hp hl
  by_cases hi : i < 2 ^ 6
  · simp only [pad, if_pos hi]
    exact ⟨hp hi, hl hi⟩
  · simp only [pad, if_neg hi]
    exact ⟨fun _ => ⟨rfl, rfl, rfl, rfl, rfl, rfl⟩, fun _ _ => ⟨rfl, rfl⟩⟩

/-- Some challenges. -/
def ch : UltraChallenges (ZMod p) (ZMod p) where
  eta _ _ _ := 2
  betaGamma _ _ _ := (3, 11)
  alpha _ _ points := points.sum
  gate _ pub _ := pub.sum
  sumcheck _ _ _ _ := 0
  opening _ _ points _ := ⟨points.sum, fun _ => 8, fun folds _ => folds.sum, fun _ _ _ => 9⟩

/-- The powers of five. -/
def crs : List (ZMod p) := (List.range 64).map fun i => 5 ^ i

theorem srs : Srs (5 : ZMod p) (1 : ZMod p) (1 : ZMod p) (5 : ZMod p) crs where
  powers i P h := by
    rw [crs, List.getElem?_map] at h
    obtain ⟨k, hk, rfl⟩ := Option.map_eq_some_iff.1 h
    have := (List.getElem?_eq_some_iff.1 hk).2
    rw [List.getElem_range] at this
    rw [this, smul_eq_mul, mul_one]
  second := by rw [smul_eq_mul, mul_one]

theorem copies : ∀ i < 2 ^ 6, ∀ j, wiresOf inst.2 j i + inst.1.sigma j i * 3 + 11 ≠ 0 := by decide +kernel

theorem lookups : ∀ i < 2 ^ 6, inst.2 .qLookup i = 1 ∨ inst.2 .lookupReadTags i = 1 →
    readTerm { start with beta := 3, gamma := 11 } (fun c => inst.2 c i) ≠ 0 ∧
    writeTerm { start with beta := 3, gamma := 11 } (fun c => inst.2 c i) ≠ 0 := by decide +kernel

theorem points : GoodPoints (List.replicate 6 (0 : ZMod p)) 8 9 := ⟨by decide +kernel, by decide +kernel, by decide +kernel⟩

/-- The run that makes the public input term. -/
def deltaRun : Except Err (ZMod p) := publicInputDelta 3 11 inst.1.publicInputs inst.1.publicOffset

theorem deltaRun_ok : deltaRun.isOk = true := by decide +kernel

theorem good (vk : UltraVk (ZMod p)) (pub : List (ZMod p)) (proof : UltraProof (ZMod p) (ZMod p)) (hl : proof.sumcheck.univariates.length = 6) :
    GoodRun ch start vk inst.1 inst.2 6 pub proof where
  copies := by rw [size]; exact copies
  lookups := by rw [size]; exact lookups
  rounds u hu i h1 h8 := by
    obtain ⟨_, _, rfl⟩ := List.mem_map.1 hu
    show (0 : ZMod p) ≠ i
    interval_cases i <;> decide
  skips δ z' _ hz j hj l hl := by
    obtain rfl : z = z' := Except.ok.inj (z_ok.symm.trans hz)
    have key : ∀ k, Tidy (partialRow (fun c => pad inst.1.size (complete inst.1.size z (lookupInverses 3 11 inst.2) inst.2 c))
        ((challenges (fun _ => (0 : ZMod p)) proof.sumcheck.univariates).take j) k) := fun k => by
      rw [show partialRow _ _ _ = _ from funext fun c => partialRow_zeros _
          (fun u hu => by obtain ⟨_, _, rfl⟩ := List.mem_map.1 (List.mem_of_mem_take hu); rfl) k c]
      exact tidy _
    exact tidy_skips _ (key _) (key _)
  points := by
    have e : challenges (ch.sumcheck vk pub proof.points3) proof.sumcheck.univariates = List.replicate 6 0 :=
      List.eq_replicate_iff.2 ⟨by simp [challenges, hl], fun u hu => by obtain ⟨_, _, rfl⟩ := List.mem_map.1 hu; rfl⟩
    rw [e]
    exact points

theorem rounds {vk : UltraVk (ZMod p)} {proof : UltraProof (ZMod p) (ZMod p)} {pub : List (ZMod p)}
    (h : ultraProve ch false start crs vk inst.1 inst.2 = .ok (proof, pub)) : proof.sumcheck.univariates.length = 6 := by
  have hw4 : inst.2 .w4Shift = fun i => if i + 1 < inst.1.size then inst.2 .w4 (i + 1) else 0 := by
    obtain ⟨t, base, r, -, -, -, -, h⟩ := instance_ok inst_ok
    rw [h]
    rfl
  obtain ⟨-, -, -, δ, z, run⟩ := ultraProve_run srs hw4 h
  have hr := run.sumcheck
  have hlog : virtualLogN false (Nat.log2 inst.1.size) = 6 := by rw [size]; rfl
  rw [hlog, size] at hr
  obtain ⟨proof', h1, h2, -⟩ := C103_evaluations (distinct_val (p := p) (k := 8) (by decide)) _ _ _ _ 6 6 (by decide) le_rfl _
  rw [h1] at hr
  cases hr
  exact h2

/-- The instance has the public input 6 and the key that a key without a witness would have. -/
example : inst.1.publicInputs = 6 :: List.replicate 8 0 := C119_public (by decide) (by decide) (by decide) satisfied inst_ok

/-- The key without a witness exists. -/
example := C119_key inst_ok

/-- The columns are an execution of the circuit. -/
example := C119_execution (by decide) (by decide) (by decide) satisfied inst_ok start

/-- The key, the proof and the verdict for the example. -/
example : ∃ (vk : UltraVk (ZMod p)) (proof : UltraProof (ZMod p) (ZMod p)), createVk ZMod.val crs ops [2] = .ok vk ∧
    ultraProve ch false start crs vk inst.1 inst.2 = .ok (proof, [6]) ∧
    ultraVerify (LinearMap.mul (ZMod p) (ZMod p)) 1 1 5 ch false start vk proof [6] = .ok true := by
  obtain ⟨vk, proof, pub, h1, h2⟩ := C120_proves (by decide) srs ch false start inst_ok le_rfl (by rw [size]; decide)
    (fun _ _ _ _ _ => by show (8 : ZMod p) ≠ 0; decide) (fun vk => ⟨_, (getOk_ok deltaRun_ok : deltaRun = .ok (getOk 0 deltaRun))⟩)
  have hlog : virtualLogN false (Nat.log2 inst.1.size) = 6 := by rw [size]; rfl
  obtain ⟨h3, h4⟩ := C120_accepted (by decide) (by decide) (by decide) satisfied srs (LinearMap.mul (ZMod p) (ZMod p)) ch false start h1 inst_ok
    le_rfl h2 (by
      rw [hlog]
      exact good _ _ _ (rounds h2))
  obtain rfl : pub = [6] := h3
  exact ⟨vk, proof, h1, h2, h4⟩

end EndDemo

end Verif.Honk
