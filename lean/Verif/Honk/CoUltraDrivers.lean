import Verif.Honk.CoUltraLemmas
import Verif.Honk.CoOinkDrivers
import Verif.Props.HonkCoShplemini
import Verif.Props.HonkCo
import Verif.Props.HonkEnd

/-!
# Lemmas about the whole collaborative prover of UltraHonk
-/

namespace Verif.Honk

open Rep3
open Acvm (Opcode)

section

variable {F G : Type} [Field F] [DecidableEq F] [AddCommGroup G] [Module F G]

/-- The steps of the opening keep the state. -/
theorem pcsSim_rep3_inv {R M : Type} [Sample R F] [Codec M (List F)] [Codec M (List G)] [Codec M (List (List G))]
    {ev : PartyID → List (Share F) → F → Share F} (hev : ∀ i, Rep3Eval (ev i)) (I : (PartyID → Rep3State R) → Prop) :
    PcsSim (M := M) I (fun i => rep3Pcs (G := G) i (ev i)) IsShare IsShare (fun i x k => Rep3.addPublic x k i) where
  linear := Plonk.linear_rep3
  evalPoly := (pcsSim_rep3 (R := R) (M := M) (G := G) (ty := .direct) hev).evalPoly
  roundUp _ := rfl
  commit := by
    intro s v crs h hv
    have e : ∀ i, ¬ crs.length < (s i).length := fun i => by rw [h.length i]; omega
    simp only [rep3Pcs, if_neg (e _)]
    refine IS.pure ?_
    have := Rep3.Point.msm_share (crs.take v.length) h
    rw [← msm_take] at this
    simpa only [h.length] using this
  openPoints h st hst := (Rep3.Point.spec_openPointMany h).mono fun r s h => ⟨h.1, h.2 ▸ hst⟩
  openPoint h st hst := (Rep3.Point.spec_openPoint h).mono fun r s h => ⟨h.1, h.2 ▸ hst⟩
  openMany h st hst := (Rep3.spec_openVec h).mono fun r s h => ⟨h.1, h.2 ▸ hst⟩

/-- The same for Shamir. -/
theorem pcsSim_shamir_inv {n t : Nat} {R M : Type} [Sample R F] [Codec M (List F)] [Codec M G] [Codec M (List G)] {ev : Fin n → List F → F → F}
    (hev : ∀ i, ShamirEval (ev i)) {I : (Fin n → Shamir.ShamirState n R F) → Prop} (hI : ∀ st, I st → Shamir.ShCorr t st) :
    PcsSim (M := M) I (fun i => shamirPcs (G := G) (ev i)) (IsShamir F t) (IsShamir F t) (fun _ x k => Shamir.addPublic x k) where
  linear := Plonk.linear_shamir
  evalPoly := (pcsSim_shamir (R := R) (M := M) (G := G) (t := t) hev).evalPoly
  roundUp _ := rfl
  commit := by
    intro s v crs h hv
    have e : ∀ i, ¬ crs.length < (s i).length := fun i => by rw [h.length i]; omega
    simp only [shamirPcs, if_neg (e _)]
    refine IS.pure ?_
    have := Shamir.msm_isShamir (crs.take v.length) h
    rw [show Shamir.msmPublicPoints (crs.take v.length) v = Rep3.Point.msm (crs.take v.length) v from rfl, ← msm_take] at this
    simpa only [h.length] using this
  openPoints h st hst := (Shamir.spec_openVec (hI st hst) h).mono fun r s h => ⟨h.1, h.2 ▸ hst⟩
  openPoint h st hst := (Shamir.spec_openShare (hI st hst) h).mono fun r s h => ⟨h.1, h.2 ▸ hst⟩
  openMany h st hst := (Shamir.spec_openVec (hI st hst) h).mono fun r s h => ⟨h.1, h.2 ▸ hst⟩

/-- Code that fails only in a bad case does not fail if there is none. -/
theorem CSpec.spec {ι S M : Type} [DecidableEq ι] {Inv : Nat → (ι → S) → Prop} {B : Prop} {α : Type} {k : Nat} {q : ι → MPC ι S M Err α}
    {Q : (ι → α) → Prop} (h : Plonk.CSpec (fun _ => Inv) (fun _ => B) k q Q) (hB : ¬ B) {st : ι → S} (hst : Inv k st) :
    Spec q st fun v s => Q v ∧ Inv 0 s := by
  obtain ⟨r, l, hr, h⟩ := h 0 0 st hst
  rcases h with ⟨_, _, h⟩ | ⟨v, s, hv, h⟩
  · exact absurd h hB
  · refine ⟨fun i => (v i, s i), l, ?_, h⟩
    rwa [show r = fun i => .ok (v i, s i) from funext hv] at hr

end

section

variable {F : Type} [Field F] [DecidableEq F] {toNat : F → Nat} {ops : List (Opcode F)} {inputs : List Nat} {witness : List F} {key : Key F}
  {table : Col → Nat → F}

/-- The selector of the lookups and the tags are bits. -/
theorem instance_bits (h : proverInstance toNat ops inputs witness = .ok (key, table)) (i : Nat) :
    (table .qLookup i = 0 ∨ table .qLookup i = 1) ∧ (table .lookupReadTags i = 0 ∨ table .lookupReadTags i = 1) := by
  obtain ⟨t, base, r, h1, h2, h3, h4, rfl⟩ := instance_ok h
  refine ⟨(qLookup_iff i).1, ?_⟩
  obtain ⟨places, -, h5⟩ := Draft.bind_ok.1 h3
  obtain ⟨-, -, h6⟩ := reads_fold _ h5
  show r.tags i = 0 ∨ r.tags i = 1
  rw [h6]
  split
  · exact .inr rfl
  · exact .inl rfl

/-- The shifts of the wires. -/
theorem instance_shifts (h : proverInstance toNat ops inputs witness = .ok (key, table)) :
    ∀ q ∈ [(Col.wl, Col.wlShift), (.wr, .wrShift), (.wo, .woShift), (.w4, .w4Shift)],
      table q.2 = fun i => if i + 1 < key.size then table q.1 (i + 1) else 0 := by
  obtain ⟨t, base, r, h1, h2, h3, h4, rfl⟩ := instance_ok h
  simp only [List.mem_cons, List.not_mem_nil, or_false, forall_eq_or_imp, forall_eq]
  exact ⟨rfl, rfl, rfl, rfl⟩

/-- The rows of the grand product. -/
theorem instance_rows (h : proverInstance toNat ops inputs witness = .ok (key, table)) {β γ : F}
    (hden : ∀ i < key.size, ∀ j, wiresOf table j i + key.sigma j i * β + γ ≠ 0) :
    ∃ rows : List Nat, rows.length < key.size ∧ (List.range ((if key.active.idxs.length > 0 then key.active.idxs.length else key.finalActive + 1) - 1)).mapM
      (fun i => if key.active.idxs.length > 0 then index key.active.idxs i else Except.ok i) = .ok rows ∧
      ∀ k ∈ rows, rowProduct β γ (wiresOf table) key.sigma k ≠ 0 := by
  obtain ⟨t, base, r, h1, h2, h3, h4, rfl⟩ := instance_ok h
  have hs := (C109_size h2).2
  have hrows : (t.full base).rows ≠ [] := fun e => by
    have := Draft.rows_length (t := t) (base := base)
    rw [e] at this
    simp at this
  exact ⟨_, by rw [List.length_range']; omega, (rows_of_key h2 hrows).1, row_ne_zero fun i _ hi => hden i (hi.trans hs)⟩

/-- The grand product can be computed. -/
theorem instance_product (h : proverInstance toNat ops inputs witness = .ok (key, table)) (β γ : F) :
    ∃ z, grandProduct key (wiresOf table) β γ = .ok z := by
  obtain ⟨t, base, r, h1, h2, h3, h4, rfl⟩ := instance_ok h
  exact C105_runs h2 (fun e => by
    have := Draft.rows_length (t := t) (base := base)
    rw [e] at this
    simp at this) _ β γ

end

/-- The columns that the parties get shares of.  `/repo/co-noir/co-noir-common/src/polynomials/entities.rs:8-15,110-117` -/
def sharedStart : List Col := [.wl, .wr, .wo, .w4, .lookupReadCounts, .lookupReadTags]

section

variable {ι S M F A G B H T : Type} [DecidableEq ι] [Field F] [DecidableEq F] [Zero A] [Add A] [Sub A] [Neg A] [SMul F A] [AddCommGroup G]
  [Module F G] [AddCommGroup H] [Module F H] [AddCommGroup T] [Module F T] [DecidableEq T]

/-- What the parties make. -/
theorem coUltra_is {Inv : Nat → (ι → S) → Prop} {I : (ι → S) → Prop} {dc : ι → CoDriver (MPC ι S M Err) F A}
    {ds : ι → SumDriver (MPC ι S M Err) F A} {dp : ι → PcsDriver (MPC ι S M Err) F A G B} {P : (ι → A) → F → Prop} {W : (ι → F) → F → Prop}
    {PB : (ι → B) → G → Prop} {addPub : ι → A → F → A} {Bad : Prop} (hB : ¬ Bad)
    (C : CoSim dc P Bad (fun {α} => Plonk.CSpec (α := α) (M := M) (fun _ => Inv) (fun _ => Bad)))
    (hp : ∀ k, PcsSim (M := M) (Inv k) dp P PB addPub) (hs : SumSim (M := M) I ds P W) (hp' : PcsSim (M := M) I dp P PB addPub)
    (hI : ∀ st, Inv 0 st → I st) (hmono : ∀ j k st, j ≤ k → Inv k st → Inv j st)
    (hd8 : Distinct F 8) {τ : F} {gen : G} {g2 g2x : H} {crs : List G} (hsrs : Srs τ gen g2 g2x crs) (pair : G →ₗ[F] H →ₗ[F] T)
    (ch : UltraChallenges F G) (hr : ∀ vk pub points s folds, (ch.opening vk pub points s).r folds ≠ 0) (padding : Bool) (consts : Params F)
    (vk : UltraVk G) {toNat : F → Nat} {ops : List (Opcode F)} {inputs : List Nat} {witness : List F} {key : Key F} {table : Col → Nat → F}
    (h : proverInstance toNat ops inputs witness = .ok (key, table)) (hn : key.size ≤ crs.length) {d : Nat} (hd : 2 ≤ d) (hsize : key.size = 2 ^ d)
    (hD : d ≤ virtualLogN padding d) {q : Col → Nat → F} (hq : ∀ c : Col, c.shared = false → ∀ row, q c row = table c row)
    {e : ι → Col → Nat → A} (he : ∀ c ∈ sharedStart, ∀ row, P (fun i => e i c row) (table c row))
    {η β γ δ : F} {z : Nat → F} (hη : ch.eta vk key.publicInputs ([Col.wl, .wr, .wo].map fun c => commitment crs key.size (table c)) = η)
    (hβγ : ch.betaGamma vk key.publicInputs
      ([Col.wl, .wr, .wo, .lookupReadCounts, .lookupReadTags, .w4].map fun c => commitment crs key.size (table c)) = (β, γ))
    (hδ : publicInputDelta β γ key.publicInputs key.publicOffset = .ok δ) (hz : grandProduct key (wiresOf table) β γ = .ok z)
    (hden : ∀ i < key.size, ∀ j, wiresOf table j i + key.sigma j i * β + γ ≠ 0) {points : List G}
    (hpoints : points = [commitment crs key.size (table .wl), commitment crs key.size (table .wr), commitment crs key.size (table .wo),
      commitment crs key.size (table .lookupReadCounts), commitment crs key.size (table .lookupReadTags), commitment crs key.size (table .w4),
      commitment crs key.size (lookupInverses β γ table), commitment crs key.size z]) {st : ι → S} (hst : Inv (24 * key.size + 6) st) :
    Spec (fun i => coUltraProve (dc i) (ds i) (dp i) ch padding consts crs vk key q (e i)) st fun r _ =>
      ∃ s o, (r = fun _ => (⟨key.publicInputs.drop (key.publicInputs.length - 8), commitment crs key.size (table .wl),
          commitment crs key.size (table .wr), commitment crs key.size (table .wo), commitment crs key.size (table .lookupReadCounts),
          commitment crs key.size (table .lookupReadTags), commitment crs key.size (table .w4), commitment crs key.size (lookupInverses β γ table),
          commitment crs key.size z, s, o⟩, key.publicInputs.take (key.publicInputs.length - 8))) ∧
        HonestDecider pair gen g2 g2x (ultraParams consts η β γ δ) (ch.alpha vk key.publicInputs points) (ch.gate vk key.publicInputs points)
          (ch.sumcheck vk key.publicInputs points) (ch.opening vk key.publicInputs points) crs d (virtualLogN padding d)
          (complete key.size z (lookupInverses β γ table) table) s o := by
  obtain ⟨rows, hl, hrows, hne⟩ := instance_rows h hden
  have hsh := instance_shifts h
  simp only [List.mem_cons, List.not_mem_nil, or_false, forall_eq_or_imp, forall_eq] at hsh
  obtain ⟨s1, s2, s3, s4⟩ := hsh
  have he' : ∀ c ∈ startShared, ColShares P (fun i => withShifts key.size (e i) c) (table c) := by
    have hshift : ∀ (c : Col), c ∈ sharedStart → ColShares P (fun i k => if k + 1 < key.size then e i c (k + 1) else 0)
        (fun k => if k + 1 < key.size then table c (k + 1) else 0) := fun c hc k => by
      by_cases hk : k + 1 < key.size
      · simp only [if_pos hk]
        exact he c hc _
      · simp only [if_neg hk]
        exact C.linear.zero
    intro c hc
    simp only [startShared, List.mem_cons, List.not_mem_nil, or_false] at hc
    rcases hc with rfl | rfl | rfl | rfl | rfl | rfl | rfl | rfl | rfl
    · exact he .wl (by decide)
    · exact he .wr (by decide)
    · exact he .wo (by decide)
    · exact he .w4 (by decide)
    · exact he .lookupReadCounts (by decide)
    · exact he .lookupReadTags (by decide)
    · rw [s1]; exact hshift .wl (by decide)
    · rw [s2]; exact hshift .wr (by decide)
    · rw [s3]; exact hshift .wo (by decide)
  have hq' : ∀ c : Col, c.shared = false → q c = table c := fun c hc => funext fun row => hq c hc row
  unfold coUltraProve
  refine Spec.bind (CSpec.spec (coOink_is (ch := ch) (vk := vk) hB C hp hsrs hn (q := q) (fun c hc => hq' c (by revert hc; revert c; decide)) he' s4
    (fun i _ => (instance_bits h i).1) (fun i _ => (instance_bits h i).2) hη hβγ hδ hz hrows hne) hB (hmono _ _ _ (by omega) hst)) ?_
  rintro _ st' ⟨⟨cols, hcols, rfl⟩, hinv⟩
  simp only [OinkMemory.points, ← hpoints]
  simp only [hsize, Nat.log2_two_pow]
  have hcols' : ∀ c : Col, c.shared = true → Cols P (fun i => (List.range (2 ^ d)).map (cols i c))
      (columns (2 ^ d) (complete key.size z (lookupInverses β γ table) table) c) := fun c hc => by
    rw [← hsize]
    exact (hcols c hc).cols
  have hpub : ∀ c : Col, c.shared = false → columns (2 ^ d) q c = columns (2 ^ d) (complete key.size z (lookupInverses β γ table) table) c :=
    fun c hc => by
      have e1 : complete key.size z (lookupInverses β γ table) table c = table c := by
        revert hc
        cases c <;> first | (intro _; rfl) | (intro hc; cases hc)
      rw [columns, columns, hq' c hc, e1]
  refine Spec.bind (decider_is hs hp' hd8 hsrs pair (ultraParams consts η β γ δ) (ch.alpha vk key.publicInputs points)
    (ch.gate vk key.publicInputs points) (ch.sumcheck vk key.publicInputs points) (ch.opening vk key.publicInputs points)
    (hr _ _ _) d (virtualLogN padding d) hd hD (hsize ▸ hn) _ hpub hcols' st' (hI _ hinv)) ?_
  rintro _ st'' ⟨⟨s, o, rfl, hh⟩, -⟩
  rw [hsize] at hh
  exact Spec.pure ⟨s, o, rfl, hh⟩

end

end Verif.Honk
