import Verif.Honk.CoUltra
import Verif.Honk.CoOinkDrivers
import Verif.Honk.UltraRun
import Verif.Props.HonkCo
import Verif.Props.HonkCoShplemini
import Verif.Props.HonkEnd

/-!
# Lemmas: the collaborative UltraHonk prover simulates the rounds of the plain one
-/

namespace Verif.Honk

open Plonk

section

variable {ι S M F A G B : Type} [DecidableEq ι] [Field F] [DecidableEq F] [Zero A] [Add A] [Sub A] [Neg A] [SMul F A] [AddCommGroup G]
  [Module F G] {I : (ι → S) → Prop} {dp : ι → PcsDriver (MPC ι S M Err) F A G B} {P : (ι → A) → F → Prop} {PB : (ι → B) → G → Prop}
  {addPub : ι → A → F → A}

theorem msm_column {H : Type} [AddCommGroup H] [Module F H] {τ : F} {gen : G} {g2 g2x : H} {crs : List G} (hsrs : Srs τ gen g2 g2x crs) {n : Nat}
    (hn : n ≤ crs.length) (f : Nat → F) : Rep3.Point.msm crs ((List.range n).map f) = commitment crs n f :=
  Except.ok.inj ((plainPcs_commit crs (by simpa using hn)).symm.trans (commit_col hsrs hn f))

/-- Shares of the first rows of a column. -/
def Rows (P : (ι → A) → F → Prop) (n : Nat) (s : ι → Nat → A) (v : Nat → F) : Prop := ∀ k < n, P (fun i => s i k) (v k)

theorem Rows.cols {n : Nat} {s : ι → Nat → A} {v : Nat → F} (h : Rows P n s v) :
    Cols P (fun i => (List.range n).map (s i)) ((List.range n).map v) :=
  cols_rows _ fun k hk => h k (List.mem_range.1 hk)

theorem commitThree_is (h : PcsSim (M := M) I dp P PB addPub) {H : Type} [AddCommGroup H] [Module F H] {τ : F} {gen : G} {g2 g2x : H} {crs : List G}
    (hsrs : Srs τ gen g2 g2x crs) {n : Nat} (hn : n ≤ crs.length) {a b c : ι → Nat → A}
    {x y z : Nat → F} (ha : Rows P n a x) (hb : Rows P n b y) (hc : Rows P n c z) :
    IS I (fun i => commitThree (dp i) crs n (a i) (b i) (c i)) fun r =>
      r = fun _ => (commitment crs n x, commitment crs n y, commitment crs n z) := by
  unfold commitThree
  refine (h.commit crs ha.cols (by simpa using hn)).bind fun a' ha' => ?_
  refine (h.commit crs hb.cols (by simpa using hn)).bind fun b' hb' => ?_
  refine (h.commit crs hc.cols (by simpa using hn)).bind fun c' hc' => ?_
  rw [msm_column hsrs hn] at ha' hb' hc'
  refine (h.openPoints (Cols.cons ha' (Cols.cons hb' (Cols.cons hc' Cols.nil)))).bind ?_
  rintro _ rfl
  exact IS.pure rfl

theorem commitTwo_is (h : PcsSim (M := M) I dp P PB addPub) {H : Type} [AddCommGroup H] [Module F H] {τ : F} {gen : G} {g2 g2x : H} {crs : List G}
    (hsrs : Srs τ gen g2 g2x crs) {n : Nat} (hn : n ≤ crs.length) {a b : ι → Nat → A}
    {x y : Nat → F} (ha : Rows P n a x) (hb : Rows P n b y) :
    IS I (fun i => commitTwo (dp i) crs n (a i) (b i)) fun r => r = fun _ => (commitment crs n x, commitment crs n y) := by
  unfold commitTwo
  refine (h.commit crs ha.cols (by simpa using hn)).bind fun a' ha' => ?_
  refine (h.commit crs hb.cols (by simpa using hn)).bind fun b' hb' => ?_
  rw [msm_column hsrs hn] at ha' hb'
  refine (h.openPoints (Cols.cons ha' (Cols.cons hb' Cols.nil))).bind ?_
  rintro _ rfl
  exact IS.pure rfl

/-- The columns that the parties have shares of before the first challenge. -/
def startShared : List Col := [.wl, .wr, .wo, .w4, .lookupReadCounts, .lookupReadTags, .wlShift, .wrShift, .woShift]

variable {Inv : Nat → (ι → S) → Prop} {dc : ι → CoDriver (MPC ι S M Err) F A}

theorem IS.cspec {B : Prop} {α : Type} {q : ι → MPC ι S M Err α} {Q : (ι → α) → Prop} (h : ∀ k, IS (Inv k) q Q) :
    CSpec (fun _ => Inv) (fun _ => B) 0 q Q :=
  CSpec.ofSpec fun _ K st hst => h K st (by rwa [Nat.zero_add] at hst)

theorem coComplete_rows (h0 : P (fun _ => 0) 0) {n : Nat} {w4 z inv : ι → Nat → A} {z' inv' : Nat → F} {e : ι → Col → Nat → A}
    {table : Col → Nat → F} (hw4s : table .w4Shift = fun i => if i + 1 < n then table .w4 (i + 1) else 0)
    (he : ∀ c ∈ startShared, Rows P n (fun i => e i c) (table c)) (hw4 : Rows P n w4 (table .w4)) (hz : Rows P n z z') (hinv : Rows P n inv inv') :
    ∀ c : Col, c.shared = true → Rows P n (fun i => coComplete n (w4 i) (z i) (inv i) (e i) c) (complete n z' inv' table c) := by
  have hshift : ∀ (s : ι → Nat → A) (v : Nat → F), Rows P n s v →
      Rows P n (fun i k => if k + 1 < n then s i (k + 1) else 0) (fun k => if k + 1 < n then v (k + 1) else 0) := fun s v h k _ => by
    by_cases hk : k + 1 < n
    · simp only [if_pos hk]
      exact h _ hk
    · simp only [if_neg hk]
      exact h0
  intro c hc
  cases c <;> first
    | exact absurd hc (by decide)
    | exact he _ (by decide)
    | exact hz
    | exact hinv
    | exact hw4
    | exact hshift _ _ hz
    | (have := hshift _ _ hw4; rw [← hw4s] at this; exact this)

theorem coOink_is {B : Prop} (hB : ¬ B) (C : CoSim dc P B (fun {α} => CSpec (α := α) (M := M) (fun _ => Inv) (fun _ => B)))
    (hp : ∀ k, PcsSim (M := M) (Inv k) dp P PB addPub) {H : Type} [AddCommGroup H] [Module F H] {τ : F} {gen : G} {g2 g2x : H}
    {ch : UltraChallenges F G} {crs : List G} (hsrs : Srs τ gen g2 g2x crs) {vk : UltraVk G} {key : Key F}
    (hn : key.size ≤ crs.length) {q table : Col → Nat → F} {e : ι → Col → Nat → A} (hq : ∀ c ∈ lookupPublic, q c = table c)
    (he : ∀ c ∈ startShared, ColShares P (fun i => e i c) (table c))
    (hw4s : table .w4Shift = fun i => if i + 1 < key.size then table .w4 (i + 1) else 0)
    (hsel : ∀ i < key.size, table .qLookup i = 0 ∨ table .qLookup i = 1)
    (htag : ∀ i < key.size, table .lookupReadTags i = 0 ∨ table .lookupReadTags i = 1)
    {η β γ δ : F} {z : Nat → F} (hη : ch.eta vk key.publicInputs ([Col.wl, .wr, .wo].map fun c => commitment crs key.size (table c)) = η)
    (hβγ : ch.betaGamma vk key.publicInputs
      ([Col.wl, .wr, .wo, .lookupReadCounts, .lookupReadTags, .w4].map fun c => commitment crs key.size (table c)) = (β, γ))
    (hδ : publicInputDelta β γ key.publicInputs key.publicOffset = .ok δ) (hz : grandProduct key (wiresOf table) β γ = .ok z)
    {rows : List Nat} (hrows : (List.range ((if key.active.idxs.length > 0 then key.active.idxs.length else key.finalActive + 1) - 1)).mapM
      (fun i => if key.active.idxs.length > 0 then index key.active.idxs i else Except.ok i) = .ok rows)
    (hne : ∀ k ∈ rows, rowProduct β γ (wiresOf table) key.sigma k ≠ 0) :
    CSpec (fun _ => Inv) (fun _ => B) (3 * key.size + (21 * rows.length + 6)) (fun i => coOink (dc i) (dp i) ch crs vk key q (e i)) fun r =>
      ∃ cols : ι → Col → Nat → A, (∀ c : Col, c.shared = true →
        Rows P key.size (fun i => cols i c) (complete key.size z (lookupInverses β γ table) table c)) ∧
        r = fun i => ⟨η, (β, γ), δ, commitment crs key.size (table .wl), commitment crs key.size (table .wr), commitment crs key.size (table .wo),
          commitment crs key.size (table .lookupReadCounts), commitment crs key.size (table .lookupReadTags),
          commitment crs key.size (table .w4), commitment crs key.size (lookupInverses β γ table), commitment crs key.size z, cols i⟩ := by
  have hr : ∀ c ∈ startShared, Rows P key.size (fun i => e i c) (table c) := fun c hc k _ => he c hc k
  unfold coOink
  refine C.bind' (k := 0) (IS.cspec fun k => commitThree_is (hp k) hsrs hn (hr .wl (by decide)) (hr .wr (by decide)) (hr .wo (by decide)))
    (j := 3 * key.size + (21 * rows.length + 6)) ?_ (by omega)
  rintro _ rfl
  simp only [List.map_cons, List.map_nil] at hη hβγ
  simp only [hη]
  have hw4 : ∀ i, (dc i).w4 (⟨η, η * η, η * η * η⟩ : Eta F) key.size [] [] [] ![e i .wl, e i .wr, e i .wo, e i .w4] = .ok (e i .w4) := fun i => rfl
  simp only [hw4]
  refine C.bind' (k := 0) (C.rules.pure (a := fun i => e i .w4) (Q := fun x => x = fun i => e i .w4) rfl)
    (j := 3 * key.size + (21 * rows.length + 6)) ?_ (by omega)
  rintro _ rfl
  refine C.bind' (k := 0) (IS.cspec fun k => commitThree_is (hp k) hsrs hn (hr .lookupReadCounts (by decide)) (hr .lookupReadTags (by decide))
    (hr .w4 (by decide))) (j := 3 * key.size + (21 * rows.length + 6)) ?_ (by omega)
  rintro _ rfl
  simp only [hβγ]
  refine C.bind' (C.lookupInverses β γ key.size hq (fun c hc => he c (by revert hc; revert c; decide)) hsel htag)
    (j := 21 * rows.length + 6) ?_ (by omega)
  rintro inv (hf | hinv)
  · exact absurd hf hB
  rw [hδ]
  refine C.lift ?_
  have hwires : ∀ j, ColShares P (fun i => ![e i .wl, e i .wr, e i .wo, e i .w4] j) (wiresOf table j) := by
    intro j
    fin_cases j
    · exact he .wl (by decide)
    · exact he .wr (by decide)
    · exact he .wo (by decide)
    · exact he .w4 (by decide)
  refine C.bind' (C.grandProduct hwires β γ hz hrows hne) (j := 0) ?_ (by omega)
  intro z' hz'
  have hi : Rows P key.size (fun i k => (inv i).getD k 0) (lookupInverses β γ table) := fun k hk => by
    have := Groth16.Cols.getD hinv C.linear.zero k
    rwa [List.getD_eq_getElem?_getD, List.getElem?_map, List.getElem?_range hk] at this
  refine C.bind' (k := 0) (IS.cspec fun k => commitTwo_is (hp k) hsrs hn hi fun k _ => hz' k) (j := 0) ?_ (by omega)
  rintro _ rfl
  exact C.rules.pure ⟨_, coComplete_rows C.linear.zero hw4s hr (hr .w4 (by decide)) (fun k _ => hz' k) hi, rfl⟩

end

end Verif.Honk
