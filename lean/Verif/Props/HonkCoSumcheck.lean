import Verif.Honk.CoSumcheckDrivers
import Verif.Props.Honk
import Verif.Props.HonkCo

/-!
# The sumcheck of the collaborative UltraHonk prover (C116)
-/

namespace Verif.Honk

section

variable {F : Type} [Field F] [DecidableEq F]

/-- What a proof for the table has to be: one univariate per round, the values of the multilinear extensions of the columns at the
challenges, a proof that the verifier accepts if the table satisfies the circuit and no challenge is one of `1, …, 7`, and the proof of
the plain prover if that prover loses nothing by leaving out permutations and lookups. -/
structure HonestSumcheck (p : Params F) (α β : F) (ch : List (Univariate F 8) → F) (d D : Nat) (table : Col → Nat → F)
    (proof : SumcheckProof F 8) : Prop where
  rounds : proof.univariates.length = D
  evaluations : ∀ c, proof.evaluations c = extension (pad (2 ^ d) (table c)) (challenges ch proof.univariates)
  accepted : Satisfied p (2 ^ d) table →
    (∀ u ∈ challenges ch proof.univariates, ∀ i : Nat, 1 ≤ i → i < 8 → u ≠ (i : F)) →
    sumcheckVerify p (alphaPowers α) (gateChallenges β D) ch D proof = .ok true
  plain : ∀ plain, sumcheckProve p (alphaPowers α) (gateChallenges β D) ch (2 ^ d) D (columns (2 ^ d) table) = .ok plain →
    (∀ j < D, ∀ l < 2 ^ (D - j - 1),
      let row := partialRow (fun c => pad (2 ^ d) (table c)) ((challenges ch plain.univariates).take j)
      SkipsNothing p (row (2 * l)) (row (2 * l + 1))) →
    plain = proof

omit [DecidableEq F] in
theorem challenges_take {M : Type} (ch : List M → F) (sent : List M) (j : Nat) : (challenges ch sent).take j = challenges ch (sent.take j) := by
  simp only [challenges, ← List.map_take, List.take_range, List.length_take]
  refine List.map_congr_left fun r hr => ?_
  rw [List.mem_range] at hr
  rw [List.take_take, Nat.min_eq_left (by omega)]

omit [DecidableEq F] in
/-- The equations of the rounds determine the univariates. -/
theorem univariates_unique {ch : List (Univariate F 8) → F} {D : Nat} {G : List F → Univariate F 8} {a b : List (Univariate F 8)}
    (ha : a.length = D) (hb : b.length = D) (h1 : ∀ j < D, a[j]? = some (G ((challenges ch a).take j)))
    (h2 : ∀ j < D, b[j]? = some (G ((challenges ch b).take j))) : a = b := by
  have key : ∀ j ≤ D, a.take j = b.take j := by
    intro j
    induction j with
    | zero => simp
    | succ j ih =>
      intro hj
      have e := ih (by omega)
      have e1 := h1 j (by omega)
      have e2 := h2 j (by omega)
      rw [challenges_take] at e1 e2
      rw [List.take_add_one, List.take_add_one, e1, e2, e]
  have := key D le_rfl
  rwa [List.take_of_length_le ha.le, List.take_of_length_le hb.le] at this

theorem honestSumcheck (hd8 : Distinct F 8) {p : Params F} {α β : F} {ch : List (Univariate F 8) → F} {d D : Nat} (hd : 2 ≤ d) (hD : d ≤ D)
    {table : Col → Nat → F} {proof : SumcheckProof F 8} (h2 : proof.univariates.length = D)
    (h3 : ∀ c, proof.evaluations c = extension (pad (2 ^ d) (table c)) (challenges ch proof.univariates))
    (h4 : ∀ j < D, proof.univariates[j]? = some (Univariate.ofPoly 8 (polyAt p (alphaPowers α) (gateChallenges β D)
      (fun l c => pad (2 ^ d) (table c) l) D ((challenges ch proof.univariates).take j)))) :
    HonestSumcheck p α β ch d D table proof := by
  refine ⟨h2, h3, fun hs hc => ?_, fun plain hp hskip => ?_⟩
  · refine verify_complete p _ _ (fun l c => pad (2 ^ d) (table c) l) D hd8 (alphaPowers_length α) (gateChallenges_length β D).ge ch proof h2
      (fun c => by rw [foldAll_zero]; exact h3 c) h4 hc ?_
    rw [sumAt]
    have e : sepValue (gateChallenges β D) [] = 1 := by cases gateChallenges β D <;> rfl
    simp only [List.length_nil, Nat.sub_zero, List.drop_zero, e, foldAll_nil]
    exact total_zero p d D hD table hs _ _
  · obtain ⟨plain', q1, q2, q3, q4⟩ := sumcheckProve_ok (p := p) (ch := ch) hd8 (alphaPowers_length α) (gateChallenges_length β D).ge hd hD table
    rw [hp] at q1
    cases q1
    have hu : plain.univariates = proof.univariates := by
      refine univariates_unique (ch := ch) (G := fun us => Univariate.ofPoly 8 (polyAt p (alphaPowers α) (gateChallenges β D)
        (fun l c => pad (2 ^ d) (table c) l) D us)) q2 h2 (fun j hj => q4 j hj fun l hl => ?_) h4
      have := hskip j hj l hl
      simp only [partialRow_eq] at this
      exact this
    have he : plain.evaluations = proof.evaluations := by
      funext c
      rw [q3, h3, hu]
    cases plain
    cases proof
    simp only at hu he
    rw [hu, he]

/-! ## C116: the collaborative sumcheck -/

/-- Three parties with the public columns of a table and replicated shares of the others all end with the same proof, and it is the one
of an honest prover. -/
theorem C116_rep3 {R M : Type} [Sample R F] [SampleVec R F] [Codec M (List F)] (hd8 : Distinct F 8) (p : Params F) (α β : F)
    (ch : List (Univariate F 8) → F) (d D : Nat) (hd : 2 ≤ d) (hD : d ≤ D) (table : Col → Nat → F) {pub : Col → List F}
    {shr : PartyID → Col → List (Share F)} (hpub : ∀ c : Col, c.shared = false → pub c = columns (2 ^ d) table c)
    (hshr : ∀ c : Col, c.shared = true → IsShares (fun i => shr i c) (columns (2 ^ d) table c)) {ty : A2BType}
    {st : PartyID → Rep3State R} (hst : Corr ty st) :
    Ensures (M := M) (fun i => coSumcheckProve (rep3Sum i) p (alphaPowers α) (gateChallenges β D) ch (2 ^ d) D pub (shr i)) st fun r _ =>
      ∃ proof, (∀ i, r i = proof) ∧ HonestSumcheck p α β ch d D table proof := by
  have := (sumSim_rep3 (F := F) (R := R) (M := M) (ty := ty)).sumcheckProve (p := p) (ch := ch) hd8 (alphaPowers_length α)
    (gateChallenges_length β D).ge hd hD table (pub := pub) (shr := shr) ⟨hpub, hshr⟩ st hst
  refine Spec.ensures (this.mono ?_)
  rintro _ _ ⟨⟨proof, rfl, h2, h3, h4⟩, -⟩
  exact ⟨proof, fun _ => rfl, honestSumcheck hd8 hd hD h2 h3 h4⟩

/-- The same for any number of parties with Shamir shares. -/
theorem C116_shamir {n t : Nat} {R M : Type} [Sample R F] [Codec M (List F)] (hd8 : Distinct F 8) (p : Params F) (α β : F)
    (ch : List (Univariate F 8) → F) (d D : Nat) (hd : 2 ≤ d) (hD : d ≤ D) (table : Col → Nat → F) {pub : Col → List F}
    {shr : Fin n → Col → List F} (hpub : ∀ c : Col, c.shared = false → pub c = columns (2 ^ d) table c)
    (hshr : ∀ c : Col, c.shared = true → IsShamirs F t (fun i => shr i c) (columns (2 ^ d) table c))
    {st : Fin n → Shamir.ShamirState n R F} (hst : Shamir.ShCorr t st) :
    Ensures (M := M) (fun i => coSumcheckProve shamirSum p (alphaPowers α) (gateChallenges β D) ch (2 ^ d) D pub (shr i)) st fun r _ =>
      ∃ proof, (∀ i, r i = proof) ∧ HonestSumcheck p α β ch d D table proof := by
  have := (sumSim_shamir (n := n) (t := t) (F := F) (R := R) (M := M)).sumcheckProve (p := p) (ch := ch) hd8 (alphaPowers_length α)
    (gateChallenges_length β D).ge hd hD table (pub := pub) (shr := shr) ⟨hpub, hshr⟩ st hst
  refine Spec.ensures (this.mono ?_)
  rintro _ _ ⟨⟨proof, rfl, h2, h3, h4⟩, -⟩
  exact ⟨proof, fun _ => rfl, honestSumcheck hd8 hd hD h2 h3 h4⟩

end

/-! ## Concrete cases -/

namespace CoSumDemo

open Demo

instance ones97 : Sample CoDemo.Ones H97 := ⟨fun r => (1, r)⟩
instance onesVec97 : SampleVec CoDemo.Ones H97 := ⟨fun r n => (List.replicate n 1, r), by simp⟩

/-- What is sent. -/
inductive Msg97 where
  | f (x : List H97)
  | n (x : List Nat)

instance msg97F : Codec Msg97 (List H97) := ⟨.f, fun | .f x => some x | _ => none, fun _ => rfl⟩
instance msg97N : Codec Msg97 (List Nat) := ⟨.n, fun | .n x => some x | _ => none, fun _ => rfl⟩

/-- Shares of a value. -/
def share97 (v : H97) (i : PartyID) : Share H97 := Rep3.addPublic (Rep3.promoteToTrivialShare i (v - 5)) 5 i

theorem isShare97 (v : H97) : IsShare (share97 v) v := by
  have := (IsShare.promote (v - 5)).addPublic 5
  rwa [sub_add_cancel] at this

theorem isShares97 (l : List H97) : IsShares (fun i => l.map fun v => share97 v i) l := by
  refine ⟨l.map share97, ?_, ?_⟩
  · funext i
    simp
  · rw [List.forall₂_map_left_iff]
    exact List.forall₂_same.2 fun v _ => isShare97 v

theorem isShamirs97 (l : List H97) : IsShamirs (n := 3) H97 1 (fun _ => l) l := by
  refine ⟨l.map fun v _ => v, ?_, ?_⟩
  · funext i
    simp [Function.comp_def]
  · rw [List.forall₂_map_left_iff]
    exact List.forall₂_same.2 fun v _ => IsShamir.const 1 v

theorem points97 : PointsDistinct H97 3 := by
  intro i j hi hj h
  exact distinct97 4 (by omega) i (by omega) j (by omega) h

/-- The plain prover is rejected on the untidy table of C103, the three parties are accepted. -/
theorem C116_differs :
    untidyRun97 = some false ∧
    Ensures (M := Msg97) (fun i => coSumcheckProve (rep3Sum i) honkParams97 (alphaPowers 11) (gateChallenges 12 3) (fun _ => 10) (2 ^ 3) 3
      (columns (2 ^ 3) untidy97) (fun c => (columns (2 ^ 3) untidy97 c).map fun v => share97 v i)) CoDemo.onesStates fun r _ =>
      ∀ i, sumcheckVerify honkParams97 (alphaPowers 11) (gateChallenges 12 3) (fun _ => 10) 3 (r i) = .ok true := by
  refine ⟨by decide +kernel, ?_⟩
  refine Ensures.mono (C116_rep3 (distinct97 8 (by omega)) honkParams97 11 12 (fun _ => 10) 3 3 (by omega) (by omega) untidy97
    (fun _ _ => rfl) (fun c _ => isShares97 _) CoDemo.corr_ones) ?_
  rintro r _ ⟨proof, hr, h⟩ i
  rw [hr i]
  refine h.accepted untidy97_satisfied fun u hu i h1 h2 => ?_
  obtain ⟨_, _, rfl⟩ := List.mem_map.1 hu
  show (10 : H97) ≠ _
  interval_cases i <;> decide

/-- Three parties with Shamir shares, two rounds for the table and one beyond. -/
example : ∃ st : Fin 3 → Shamir.ShamirState 3 CoDemo.Ones H97, Shamir.ShCorr 1 st ∧
    Ensures (M := Msg97) (fun _ => coSumcheckProve shamirSum honkParams97 (alphaPowers 11) (gateChallenges 12 3) (fun _ => 10) (2 ^ 2) 3
      (columns (2 ^ 2) table97) (columns (2 ^ 2) table97)) st fun r _ =>
      ∀ i, sumcheckVerify honkParams97 (alphaPowers 11) (gateChallenges 12 3) (fun _ => 10) 3 (r i) = .ok true := by
  obtain ⟨g, l, h1, hg, h2⟩ := Shamir.spec_preprocessingNew (M := Msg97) (Seed := Nat) (R := CoDemo.Ones) (F := H97) (t := 1)
    (amount := 10) points97 (by decide) (by decide) (fun i => i.val + 5) (fun _ => ())
  obtain ⟨st, -, h, -⟩ := Shamir.ofPreprocessing_spec hg
  refine ⟨st, h, Ensures.mono (C116_shamir (distinct97 8 (by omega)) honkParams97 11 12 (fun _ => 10) 2 3 (by omega) (by omega) table97
    (fun _ _ => rfl) (fun c _ => isShamirs97 _) h) ?_⟩
  rintro r _ ⟨proof, hr, h⟩ i
  rw [hr i]
  refine h.accepted table97_satisfied fun u hu i h1 h2 => ?_
  obtain ⟨_, _, rfl⟩ := List.mem_map.1 hu
  show (10 : H97) ≠ _
  interval_cases i <;> decide

end CoSumDemo

end Verif.Honk
