import Verif.Honk.UltraRun
import Verif.Props.HonkEnd

/-!
# UltraHonk: the verifier accepts only true statements (C122)

C120 says that a proof of a true statement is accepted.  Here is the other direction, for the same verifier and the same key, up to the
opening protocol: the claimed values must be those of the columns the prover is bound to.
-/

namespace Verif.Honk

open Acvm (Opcode)

section

variable {p : Nat} [Fact p.Prime] {G H T : Type} [AddCommGroup G] [Module (ZMod p) G] [AddCommGroup H] [Module (ZMod p) H] [AddCommGroup T]
  [Module (ZMod p) T] [DecidableEq T]

/-- Let no assignment satisfy the program with the public inputs `pub`.  Let a prover be bound to columns: those of the key are the ones of
the program, and the others are arbitrary.  If the claimed values are the values of these columns, then the verifier, with the key made from
the program, accepts only if a challenge falls into a small set that is fixed before the challenge is drawn. -/
theorem C122_sound {ops : List (Opcode (ZMod p))} {inputs : List Nat} {key : Key (ZMod p)} {columns₀ : Col → Nat → ZMod p}
    (h : proverInstance ZMod.val ops inputs [] = .ok (key, columns₀)) {t : Draft (ZMod p)} {base : Nat}
    (ht : Draft.createFull ZMod.val ops inputs [] = .ok (t, base)) (hp : 5 * 2 ^ 28 + t.tag + key.size + 3 * t.vars.length + 30 ≤ p)
    (e : G →ₗ[ZMod p] H →ₗ[ZMod p] T) (gen : G) (g2 : H) (padding : Bool)
    (hD : Nat.log2 key.size ≤ virtualLogN padding (Nat.log2 key.size)) (consts : Params (ZMod p)) (η : ZMod p)
    (table : Col → Nat → ZMod p) (hpre : ∀ c ∈ Col.precomputed, table c = columns₀ c)
    (hshift : ∀ i, i + 1 < key.size → table .wlShift i = table .wl (i + 1) ∧ table .w4Shift i = table .w4 (i + 1))
    (pub pairing : List (ZMod p)) (hpair : pairing.length = 8)
    (hfalse : ¬ ∃ a : Spec.Acir.Assignment p, Spec.Acir.Satisfies a Spec.Acir.noMemory ops ∧ pub = inputs.map a) :
    ∃ Bβ : Finset (ZMod p), Bβ.card ≤ 103 * key.size ^ 2 ∧ ∀ β ∉ Bβ,
    ∃ Bγ : Finset (ZMod p), Bγ.card ≤ 9 * key.size ∧ ∀ γ ∉ Bγ, ∀ zPerm inverses : Nat → ZMod p, zPerm 0 = 0 →
    ∃ Bα : Finset (ZMod p), Bα.card ≤ 27 ∧ ∀ α ∉ Bα,
    ∃ Bg : Finset (ZMod p), Bg.card ≤ key.size - 1 ∧ ∀ g ∉ Bg,
    ∃ bad : List (ZMod p) → Univariate (ZMod p) 8 → Finset (ZMod p), (∀ us u, (bad us u).card ≤ 7) ∧
      ∀ (crs : List G) (vk : UltraVk G), createVk ZMod.val crs ops inputs = .ok vk →
      ∀ (g2x : H) (ch : UltraChallenges (ZMod p) G) (proof : UltraProof (ZMod p) G), proof.pairing = pairing →
        ch.eta vk (pub ++ pairing) proof.points1 = η → ch.betaGamma vk (pub ++ pairing) proof.points2 = (β, γ) →
        ch.alpha vk (pub ++ pairing) proof.points3 = α → ch.gate vk (pub ++ pairing) proof.points3 = g →
        let us := challenges (ch.sumcheck vk (pub ++ pairing) proof.points3) proof.sumcheck.univariates
        let D := virtualLogN padding (Nat.log2 key.size)
        (∀ c, proof.sumcheck.evaluations c = extension (pad key.size (complete key.size zPerm inverses table c)) (us.take D)) →
        ultraVerify e gen g2 g2x ch padding consts vk proof pub = .ok true →
        ∃ j < D, us.getD j 0 ∈ bad (us.take j) (proof.sumcheck.univariates.getD j 0) := by
  obtain ⟨d, hd, hsize, hlog⟩ := instance_log h
  obtain ⟨t', base', r, h1, h2, h3, h4, rfl⟩ := instance_ok h
  obtain ⟨rfl, rfl⟩ := Prod.mk.inj (Except.ok.inj (ht.symm.trans h1))
  have hrows : (t.full base).rows.length < key.size := (C109_size h2).2
  have hvks : ∀ {crs : List G} {vk : UltraVk G}, createVk ZMod.val crs ops inputs = .ok vk → vk.numPublic = key.publicInputs.length ∧
      vk.publicOffset = key.publicOffset ∧ vk.logSize = Nat.log2 key.size := fun hvk => by
    obtain ⟨k, hk, hvk⟩ := Draft.bind_ok.1 hvk
    obtain rfl := Except.ok.inj (h.symm.trans hk)
    obtain ⟨cs, -, hvk⟩ := Draft.bind_ok.1 hvk
    have hvk := Except.ok.inj hvk
    exact ⟨by rw [← hvk], by rw [← hvk], by rw [← hvk]⟩
  have hkeylen : key.publicInputs.length = inputs.length + 8 := by
    obtain ⟨b, hb, hf, is, hin, hlen, -⟩ := Draft.createCircuit_spec (Draft.createFull_circuit h1)
    rw [(C105_wires h2).2, List.length_map, show (t.full base).inputs = inputs ++ is from hf.inputs.trans hin, List.length_append, hlen]
  -- a proof with another number of public inputs is rejected
  by_cases hlen : (pub ++ pairing).length = inputs.length + 8
  swap
  · refine ⟨∅, by simp, fun β _ => ⟨∅, by simp, fun γ _ z inv _ => ⟨∅, by simp, fun α _ => ⟨∅, by simp, fun g _ =>
      ⟨fun _ _ => ∅, fun _ _ => by simp, ?_⟩⟩⟩⟩⟩
    intro crs vk hvk g2x ch proof hpr _ _ _ _ us D _ hv
    obtain ⟨hnum, hoff, hls⟩ := hvks hvk
    rw [ultraVerify] at hv
    simp only [hpr] at hv
    rw [if_pos (by rw [hnum, hkeylen]; exact hlen)] at hv
    cases hv
  have hfalse' : ¬ ∃ a : Spec.Acir.Assignment p, Spec.Acir.Satisfies a Spec.Acir.noMemory ops ∧
      pub ++ pairing = inputs.map a ++ List.replicate 8 0 := by
    rintro ⟨a, ha, e1⟩
    exact hfalse ⟨a, ha, (List.append_inj e1 (by rw [List.length_map]; rw [List.length_append] at hlen; omega)).1⟩
  have htable : HasKey key table := by
    have hk := keyTable_key (t := t) (key := key) (entries := dummyEntries) (r := r)
    refine ⟨?_, ?_, ?_, ?_⟩
    · rw [hpre .sigma1 (by decide), hpre .sigma2 (by decide), hpre .sigma3 (by decide), hpre .sigma4 (by decide)]; exact hk.sigma
    · rw [hpre .id1 (by decide), hpre .id2 (by decide), hpre .id3 (by decide), hpre .id4 (by decide)]; exact hk.id
    · rw [hpre .lagrangeFirst (by decide)]; exact hk.first
    · rw [hpre .lagrangeLast (by decide)]; exact hk.last
  have hsel : ∀ c ∈ selectorCols, c ∈ Col.precomputed := by decide
  have htrace : IsTrace t (lookupRows t.zeroIdx base) key.size table := by
    have hk := keyTable_trace (t := t) (base := base) (key := key) (entries := dummyEntries) (r := r)
    refine ⟨fun i g hg c hc => ?_, fun i g hg c hc => ?_, fun i hi => (hshift i hi).1, fun i hi => (hshift i hi).2⟩
    · rw [hpre c (hsel c hc)]; exact hk.arith i g hg c hc
    · rw [hpre c (hsel c hc)]; exact hk.delta i g hg c hc
  have hq : ∀ i < 2 ^ d, table .qLookup i = 0 ∨ table .qLookup i = 1 := fun i _ => by
    rw [hpre .qLookup (by decide)]; exact (qLookup_iff i).1
  rw [hlog] at hD
  obtain ⟨lookup, others, tables, hfull, hl⟩ : ∃ lookup others tables, t.full base = t.toBuilder lookup others tables ∧
      lookupRows t.zeroIdx base = lookup := ⟨_, _, _, rfl, rfl⟩
  rw [hfull] at h2 hrows
  rw [hl] at htrace
  have hcc := Draft.createFull_circuit h1
  obtain ⟨Bβ, hBβ, hβ⟩ := C113_argument hcc h2 hsize hD (by omega)
    { consts with eta1 := η, eta2 := η * η, eta3 := η * η * η } table htable htrace hq (pub ++ pairing) hlen hfalse'
  refine ⟨Bβ, hBβ.trans ?_, fun β hb => ?_⟩
  · rw [← hsize]; nlinarith
  obtain ⟨Bγ, hBγ, hγ⟩ := hβ β hb
  refine ⟨Bγ, hBγ.trans ?_, fun γ hg z inv hz => ?_⟩
  · rw [← hsize]; omega
  cases hδ : publicInputDelta β γ (pub ++ pairing) key.publicOffset with
  | error err =>
    refine ⟨∅, by simp, fun α _ => ⟨∅, by simp, fun g _ => ⟨fun _ _ => ∅, fun _ _ => by simp, ?_⟩⟩⟩
    intro crs vk hvk g2x ch proof hpr _ hβγ _ _ us D _ hv
    obtain ⟨hnum, hoff, hls⟩ := hvks hvk
    rw [ultraVerify] at hv
    simp only [hpr] at hv
    rw [if_neg (by rw [hnum, hkeylen]; exact not_not.2 hlen)] at hv
    simp only [hβγ, hoff, hδ] at hv
    cases hv
  | ok δ =>
    obtain ⟨Bα, hBα, hα⟩ := hγ γ hg δ hδ z inv hz
    refine ⟨Bα, hBα, fun α ha => ?_⟩
    obtain ⟨Bg, hBg, hg⟩ := hα α ha
    refine ⟨Bg, hsize ▸ hBg, fun g hg' => ?_⟩
    obtain ⟨bad, hbad, hs⟩ := hg g hg'
    refine ⟨bad, hbad, ?_⟩
    intro crs vk hvk g2x ch proof hpr hη hβγ hα' hgate us D hev hv
    obtain ⟨hnum, hoff, hls⟩ := hvks hvk
    rw [ultraVerify] at hv
    simp only [hpr] at hv
    rw [if_neg (by rw [hnum, hkeylen]; exact not_not.2 hlen)] at hv
    simp only [hβγ, hoff, hδ, hη, hα', hgate, hls] at hv
    obtain ⟨δ', e1, hv⟩ := Draft.bind_ok.1 hv
    obtain rfl := Except.ok.inj e1
    obtain ⟨verified, hver, hv⟩ := Draft.bind_ok.1 hv
    cases verified with
    | false => cases hv
    | true =>
      simp only [us, D, hlog] at hver hev ⊢
      rw [hsize] at hev
      exact hs _ _ hver hev

end

/-! ## Example -/

namespace SoundDemo

open BuildDemo (p ops start)
open EndDemo (getOk getOk_ok crs)

/-- The run that makes the key and the columns without a witness. -/
def instRun : Except Err (Key (ZMod p) × (Col → Nat → ZMod p)) := proverInstance ZMod.val ops [2] []

/-- The key and the columns. -/
def inst : Key (ZMod p) × (Col → Nat → ZMod p) := getOk (BuildDemo.key, BuildDemo.table) instRun

theorem instRun_ok : instRun.isOk = true := by decide +kernel

theorem inst_ok : proverInstance ZMod.val ops [2] [] = .ok (inst.1, inst.2) := by
  have h : instRun = .ok inst := getOk_ok instRun_ok
  rw [Prod.mk.eta, ← h]
  rfl

attribute [local irreducible] inst

theorem size : inst.1.size = 2 ^ 6 := by decide +kernel

/-- The run that makes the verifying key. -/
def vkRun : Except Err (UltraVk (ZMod p)) := createVk ZMod.val crs ops [2]

/-- The verifying key. -/
def vk : UltraVk (ZMod p) := getOk ⟨0, 0, 0, fun _ => 0⟩ vkRun

theorem vkRun_ok : vkRun.isOk = true := by decide +kernel

theorem vk_ok : createVk ZMod.val crs ops [2] = .ok vk := (getOk_ok vkRun_ok : vkRun = .ok vk)

/-- The run that makes the circuit. -/
def fullRun : Except Err (Draft (ZMod p) × Nat) := Draft.createFull ZMod.val ops [2] []

/-- The circuit. -/
def full : Draft (ZMod p) × Nat := getOk (BuildDemo.t, 0) fullRun

theorem fullRun_ok : fullRun.isOk = true := by decide +kernel

theorem full_ok : Draft.createFull ZMod.val ops [2] [] = .ok (full.1, full.2) := by
  have h : fullRun = .ok full := getOk_ok fullRun_ok
  rw [Prod.mk.eta, ← h]
  rfl

attribute [local irreducible] full

/-- The columns of a prover who has put some values of their own into the wires. -/
def table : Col → Nat → ZMod p := fun c i =>
  match c with
  | .wl => i * i
  | .wr => 9
  | .w4 => 5
  | .wlShift => ((i + 1 : Nat) : ZMod p) * ((i + 1 : Nat) : ZMod p)
  | .w4Shift => 5
  | c => inst.2 c i

theorem table_key : ∀ c ∈ Col.precomputed, table c = inst.2 c := by
  intro c hc
  have : c ≠ .wl ∧ c ≠ .wr ∧ c ≠ .w4 ∧ c ≠ .wlShift ∧ c ≠ .w4Shift := by revert hc; revert c; decide
  cases c <;> first | rfl | simp at this

/-- Nine has more than three bits. -/
theorem wrong : ¬ ∃ a : Spec.Acir.Assignment p, Spec.Acir.Satisfies a Spec.Acir.noMemory ops ∧ [9] = [2].map a := by
  rintro ⟨a, ha, e⟩
  exact BuildDemo.wrong ⟨a, ha, by rw [← e]; rfl⟩

theorem bound : 5 * 2 ^ 28 + full.1.tag + inst.1.size + 3 * full.1.vars.length + 30 ≤ p := by decide +kernel

/-- The hypotheses hold of a program whose public input has at most three bits, and the public input nine. -/
example := C122_sound inst_ok full_ok bound (LinearMap.mul (ZMod p) (ZMod p)) (1 : ZMod p) (1 : ZMod p) true (by rw [size]; decide) start 2
  table table_key (fun i _ => ⟨rfl, rfl⟩) [9] (List.replicate 8 0) rfl wrong

/-- There is a verifying key for it. -/
example : createVk ZMod.val crs ops [2] = .ok vk := vk_ok

end SoundDemo

end Verif.Honk
