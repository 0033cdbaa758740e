import Verif.Honk.ShpleminiCo
import Verif.Props.HonkCoSumcheck
import Verif.Props.HonkShplemini

/-!
# The opening of the collaborative UltraHonk prover (C118)
-/

namespace Verif.Honk

section

variable {F G : Type} [Field F] [DecidableEq F] [AddCommGroup G] [Module F G]

theorem precomputed_public : ∀ c ∈ Col.precomputed, c.shared = false := by decide

theorem witness_shared : ∀ c ∈ Col.witness, c.shared = true := by decide

theorem toBeShifted_shared : ∀ c ∈ Col.toBeShifted, c.shared = true := by decide

omit [DecidableEq F] [AddCommGroup G] [Module F G] in
theorem cols_columns {ι A : Type} {P : (ι → A) → F → Prop} {n : Nat} {table : Col → Nat → F} {shr : ι → Col → List A}
    (hshr : ∀ c : Col, c.shared = true → Cols P (fun i => shr i c) (columns n table c)) (l : List Col) (hl : ∀ c ∈ l, c.shared = true) :
    Cols (Cols P) (fun i => l.map (shr i)) (l.map (columns n table)) := by
  induction l with
  | nil => exact Cols.nil
  | cons c l ih => exact Cols.cons (hshr c (hl c (by simp))) (ih fun c' hc' => hl c' (by simp [hc']))

omit [DecidableEq F] [AddCommGroup G] [Module F G] in
theorem public_columns {n : Nat} {table : Col → Nat → F} {pub : Col → List F} (hpub : ∀ c : Col, c.shared = false → pub c = columns n table c) :
    Col.precomputed.map pub = Col.precomputed.map (columns n table) :=
  List.map_congr_left fun c hc => hpub c (precomputed_public c hc)

/-- `ev` is what `eval_poly` can return, for some split of the coefficients among threads. -/
def Rep3Eval (ev : List (Share F) → F → Share F) : Prop :=
  ∀ l x, l ≠ [] → ∃ threads, Verif.Poly.EvalPoly Verif.Poly.rep3Ops threads l x (ev l x)

/-- The same for Shamir. -/
def ShamirEval (ev : List F → F → F) : Prop :=
  ∀ l x, l ≠ [] → ∃ threads, Verif.Poly.EvalPoly Verif.Poly.shamirOps threads l x (ev l x)

/-! ## The opening -/

/-- If the plain prover makes a proof, three parties with the public columns of the table and replicated shares of the others make the
same one. -/
theorem C118_rep3 {R M : Type} [Sample R F] [Codec M (List F)] [Codec M (List G)] [Codec M (List (List G))]
    {ev : PartyID → List (Share F) → F → Share F} (hev : ∀ i, Rep3Eval (ev i)) (ch : PcsChallenges F G) (crs : List G) (logN : Nat)
    (us : List F) (h2 : 2 ≤ logN) (hD : logN ≤ us.length) (hlen : 2 ^ logN ≤ crs.length) (table : Col → Nat → F) {pub : Col → List F}
    {shr : PartyID → Col → List (Share F)} (hpub : ∀ c : Col, c.shared = false → pub c = columns (2 ^ logN) table c)
    (hshr : ∀ c : Col, c.shared = true → IsShares (fun i => shr i c) (columns (2 ^ logN) table c)) (proof : PcsProof F G)
    (h : openTable ch crs logN us table = .ok proof) {ty : A2BType} {st : PartyID → Rep3State R} (hst : Corr ty st) :
    Ensures (M := M) (fun i => shpleminiProve (rep3Pcs i (ev i)) ch crs logN us (Col.precomputed.map pub) (Col.witness.map (shr i))
      (Col.toBeShifted.map (shr i))) st fun r _ => ∀ i, r i = proof := by
  have := (pcsSim_rep3 (G := G) (R := R) (M := M) (ty := ty) hev).prove (ch := ch) h2 hD hlen (pub := Col.precomputed.map pub)
    (cols_columns hshr _ witness_shared) (cols_columns hshr _ toBeShifted_shared) (proof := proof) (by rw [public_columns hpub]; exact h) st hst
  refine Spec.ensures (this.mono ?_)
  rintro _ _ ⟨rfl, -⟩
  exact fun _ => rfl

/-- The same for any number of parties with Shamir shares. -/
theorem C118_shamir {n t : Nat} {R M : Type} [Sample R F] [Codec M (List F)] [Codec M G] [Codec M (List G)]
    {ev : Fin n → List F → F → F} (hev : ∀ i, ShamirEval (ev i)) (ch : PcsChallenges F G) (crs : List G) (logN : Nat)
    (us : List F) (h2 : 2 ≤ logN) (hD : logN ≤ us.length) (hlen : 2 ^ logN ≤ crs.length) (table : Col → Nat → F) {pub : Col → List F}
    {shr : Fin n → Col → List F} (hpub : ∀ c : Col, c.shared = false → pub c = columns (2 ^ logN) table c)
    (hshr : ∀ c : Col, c.shared = true → IsShamirs F t (fun i => shr i c) (columns (2 ^ logN) table c)) (proof : PcsProof F G)
    (h : openTable ch crs logN us table = .ok proof) {st : Fin n → Shamir.ShamirState n R F} (hst : Shamir.ShCorr t st) :
    Ensures (M := M) (fun i => shpleminiProve (shamirPcs (ev i)) ch crs logN us (Col.precomputed.map pub) (Col.witness.map (shr i))
      (Col.toBeShifted.map (shr i))) st fun r _ => ∀ i, r i = proof := by
  have := (pcsSim_shamir (G := G) (R := R) (M := M) (t := t) hev).prove (ch := ch) h2 hD hlen (pub := Col.precomputed.map pub)
    (cols_columns hshr _ witness_shared) (cols_columns hshr _ toBeShifted_shared) (proof := proof) (by rw [public_columns hpub]; exact h) st hst
  refine Spec.ensures (this.mono ?_)
  rintro _ _ ⟨rfl, -⟩
  exact fun _ => rfl

/-! ## Sumcheck and opening -/

/-- What the two parts of a proof have to be: the sumcheck is the one of an honest prover, and the verifier accepts the opening of the
values that the sumcheck claims, unless a challenge is one where it divides by zero. -/
structure HonestDecider {H T : Type} [AddCommGroup H] [Module F H] [AddCommGroup T] [Module F T] [DecidableEq T] (e : G →ₗ[F] H →ₗ[F] T)
    (gen : G) (g2 g2x : H) (p : Params F) (α β : F) (sch : List (Univariate F 8) → F) (ch : SumcheckProof F 8 → PcsChallenges F G)
    (crs : List G) (d D : Nat) (table : Col → Nat → F) (s : SumcheckProof F 8) (o : PcsProof F G) : Prop where
  sumcheck : HonestSumcheck p α β sch d D table s
  opening : Shifted (2 ^ d) table →
    GoodPoints (challenges sch s.univariates) ((ch s).r o.folds) ((ch s).z o.folds o.evals o.q) →
    shpleminiVerify e gen g2 g2x (ch s) (challenges sch s.univariates) (fun c => commitment crs (2 ^ d) (table c)) s.evaluations o = .ok true

section

variable {H T : Type} [AddCommGroup H] [Module F H] [AddCommGroup T] [Module F T] [DecidableEq T]

theorem decider_is {ι S M A B : Type} [DecidableEq ι] [Zero A] [Add A] [Sub A] [Neg A] [SMul F A] {I : (ι → S) → Prop}
    {ds : ι → SumDriver (MPC ι S M Err) F A} {dp : ι → PcsDriver (MPC ι S M Err) F A G B} {P : (ι → A) → F → Prop} {W : (ι → F) → F → Prop}
    {PB : (ι → B) → G → Prop} {addPub : ι → A → F → A} (hs : SumSim (M := M) I ds P W) (hp : PcsSim (M := M) I dp P PB addPub)
    (hd8 : Distinct F 8) {τ : F} {gen : G} {g2 g2x : H} {crs : List G} (hsrs : Srs τ gen g2 g2x crs) (e : G →ₗ[F] H →ₗ[F] T)
    (p : Params F) (α β : F) (sch : List (Univariate F 8) → F) (ch : SumcheckProof F 8 → PcsChallenges F G)
    (hr : ∀ s folds, (ch s).r folds ≠ 0) (d D : Nat) (hd : 2 ≤ d) (hD : d ≤ D) (hlen : 2 ^ d ≤ crs.length) (table : Col → Nat → F)
    {pub : Col → List F} {shr : ι → Col → List A} (hpub : ∀ c : Col, c.shared = false → pub c = columns (2 ^ d) table c)
    (hshr : ∀ c : Col, c.shared = true → Cols P (fun i => shr i c) (columns (2 ^ d) table c)) :
    IS I (fun i => coDecide (ds i) (dp i) p (alphaPowers α) (gateChallenges β D) sch ch crs d D pub (shr i)) fun r =>
      ∃ s o, (r = fun _ => (s, o)) ∧ HonestDecider e gen g2 g2x p α β sch ch crs d D table s o := by
  refine (hs.sumcheckProve (p := p) (ch := sch) hd8 (alphaPowers_length α) (gateChallenges_length β D).ge hd hD table (pub := pub) (shr := shr)
    ⟨hpub, hshr⟩).bind ?_
  rintro _ ⟨s, rfl, q2, q3, q4⟩
  have hl : d ≤ (challenges sch s.univariates).length := by simpa [challenges, q2] using hD
  obtain ⟨o, ho⟩ := C117_succeeds hsrs (ch s) d (challenges sch s.univariates) hd hl hlen table (hr s)
  refine (hp.prove (ch := ch s) hd hl hlen (pub := Col.precomputed.map pub) (cols_columns hshr _ witness_shared)
    (cols_columns hshr _ toBeShifted_shared) (proof := o) (by rw [public_columns hpub]; exact ho)).bind ?_
  rintro _ rfl
  refine IS.pure ⟨s, o, rfl, honestSumcheck hd8 hd hD q2 q3 q4, fun hshift hgood => ?_⟩
  rw [show s.evaluations = fun c => extension (pad (2 ^ d) (table c)) (challenges sch s.univariates) from funext q3]
  exact C117_complete hsrs e (ch s) d _ hd hl hlen table hshift o ho hgood

/-- Three parties run the sumcheck and the opening.  They never fail, and end with the same proof; the verifier accepts it if the table
satisfies the circuit. -/
theorem C118_decider_rep3 {R M : Type} [Sample R F] [SampleVec R F] [Codec M (List F)] [Codec M (List G)] [Codec M (List (List G))]
    {ev : PartyID → List (Share F) → F → Share F} (hev : ∀ i, Rep3Eval (ev i)) (hd8 : Distinct F 8) {τ : F} {gen : G} {g2 g2x : H}
    {crs : List G} (hsrs : Srs τ gen g2 g2x crs) (e : G →ₗ[F] H →ₗ[F] T) (p : Params F) (α β : F) (sch : List (Univariate F 8) → F)
    (ch : SumcheckProof F 8 → PcsChallenges F G) (hr : ∀ s folds, (ch s).r folds ≠ 0) (d D : Nat) (hd : 2 ≤ d) (hD : d ≤ D)
    (hlen : 2 ^ d ≤ crs.length) (table : Col → Nat → F) {pub : Col → List F} {shr : PartyID → Col → List (Share F)}
    (hpub : ∀ c : Col, c.shared = false → pub c = columns (2 ^ d) table c)
    (hshr : ∀ c : Col, c.shared = true → IsShares (fun i => shr i c) (columns (2 ^ d) table c)) {ty : A2BType}
    {st : PartyID → Rep3State R} (hst : Corr ty st) :
    Ensures (M := M) (fun i => coDecide (rep3Sum i) (rep3Pcs i (ev i)) p (alphaPowers α) (gateChallenges β D) sch ch crs d D pub (shr i)) st
      fun r _ => ∃ s o, (∀ i, r i = (s, o)) ∧ HonestDecider e gen g2 g2x p α β sch ch crs d D table s o := by
  refine Spec.ensures ((decider_is (sumSim_rep3 (R := R) (M := M) (ty := ty)) (pcsSim_rep3 hev) hd8 hsrs e p α β sch ch hr d D hd hD hlen table
    hpub hshr st hst).mono ?_)
  rintro _ _ ⟨⟨s, o, rfl, h⟩, -⟩
  exact ⟨s, o, fun _ => rfl, h⟩

/-- The same for any number of parties with Shamir shares. -/
theorem C118_decider_shamir {n t : Nat} {R M : Type} [Sample R F] [Codec M (List F)] [Codec M G] [Codec M (List G)]
    {ev : Fin n → List F → F → F} (hev : ∀ i, ShamirEval (ev i)) (hd8 : Distinct F 8) {τ : F} {gen : G} {g2 g2x : H}
    {crs : List G} (hsrs : Srs τ gen g2 g2x crs) (e : G →ₗ[F] H →ₗ[F] T) (p : Params F) (α β : F) (sch : List (Univariate F 8) → F)
    (ch : SumcheckProof F 8 → PcsChallenges F G) (hr : ∀ s folds, (ch s).r folds ≠ 0) (d D : Nat) (hd : 2 ≤ d) (hD : d ≤ D)
    (hlen : 2 ^ d ≤ crs.length) (table : Col → Nat → F) {pub : Col → List F} {shr : Fin n → Col → List F}
    (hpub : ∀ c : Col, c.shared = false → pub c = columns (2 ^ d) table c)
    (hshr : ∀ c : Col, c.shared = true → IsShamirs F t (fun i => shr i c) (columns (2 ^ d) table c))
    {st : Fin n → Shamir.ShamirState n R F} (hst : Shamir.ShCorr t st) :
    Ensures (M := M) (fun i => coDecide shamirSum (shamirPcs (ev i)) p (alphaPowers α) (gateChallenges β D) sch ch crs d D pub (shr i)) st
      fun r _ => ∃ s o, (∀ i, r i = (s, o)) ∧ HonestDecider e gen g2 g2x p α β sch ch crs d D table s o := by
  refine Spec.ensures ((decider_is (sumSim_shamir (R := R) (M := M)) (pcsSim_shamir hev) hd8 hsrs e p α β sch ch hr d D hd hD hlen table
    hpub hshr st hst).mono ?_)
  rintro _ _ ⟨⟨s, o, rfl, h⟩, -⟩
  exact ⟨s, o, fun _ => rfl, h⟩

end

end

/-! ## Concrete cases -/

namespace CoPcsDemo

open Demo PcsDemo

/-- What is sent. -/
inductive MsgPcs where
  | f (x : List H97)
  | ff (x : List (List H97))
  | e (x : H97)
  | n (x : List Nat)

instance msgPcsF : Codec MsgPcs (List H97) := ⟨.f, fun | .f x => some x | _ => none, fun _ => rfl⟩
instance msgPcsFF : Codec MsgPcs (List (List H97)) := ⟨.ff, fun | .ff x => some x | _ => none, fun _ => rfl⟩
instance msgPcsE : Codec MsgPcs H97 := ⟨.e, fun | .e x => some x | _ => none, fun _ => rfl⟩
instance msgPcsN : Codec MsgPcs (List Nat) := ⟨.n, fun | .n x => some x | _ => none, fun _ => rfl⟩

theorem rep3Eval97 : ∃ ev : PartyID → List (Share H97) → H97 → Share H97, ∀ i, Rep3Eval (ev i) := by
  have h : ∀ (l : List (Share H97)) (y : H97), ∃ r, l ≠ [] → ∃ threads, Verif.Poly.EvalPoly Verif.Poly.rep3Ops threads l y r := by
    intro l y
    by_cases hl : l = []
    · exact ⟨0, fun h => absurd hl h⟩
    · exact (Verif.Poly.evalPoly_exists Verif.Poly.rep3Ops 3 hl y).imp fun _ h _ => ⟨3, h⟩
  choose f hf using h
  exact ⟨fun _ => f, fun _ l x hl => hf l x hl⟩

theorem shamirEval97 : ∃ ev : Fin 3 → List H97 → H97 → H97, ∀ i, ShamirEval (ev i) := by
  have h : ∀ (l : List H97) (y : H97), ∃ r, l ≠ [] → ∃ threads, Verif.Poly.EvalPoly Verif.Poly.shamirOps threads l y r := by
    intro l y
    by_cases hl : l = []
    · exact ⟨0, fun h => absurd hl h⟩
    · exact (Verif.Poly.evalPoly_exists Verif.Poly.shamirOps 3 hl y).imp fun _ h _ => ⟨3, h⟩
  choose f hf using h
  exact ⟨fun _ => f, fun _ l x hl => hf l x hl⟩

/-- The challenges of the opening depend on the sumcheck, too. -/
def chs97 (s : SumcheckProof H97 8) : PcsChallenges H97 H97 := { ch97 with rho := 7 + s.evaluations .wl }

theorem chs97_r (s : SumcheckProof H97 8) (folds : List H97) : (chs97 s).r folds ≠ 0 := by
  simp only [chs97, ch97, mul_zero, zero_add]
  decide

theorem good10 : GoodPoints [10, 10, 10] (2 : H97) 20 where
  fold := by intro j hj; have hj' : j < 3 := hj; interval_cases j <;> decide
  pos := by intro j hj; have hj' : j < 3 := hj; interval_cases j <;> decide
  neg := by intro j hj; have hj' : j < 3 := hj; interval_cases j <;> decide

theorem accepted97 {s : SumcheckProof H97 8} {o : PcsProof H97 H97}
    (h : HonestDecider (LinearMap.mul H97 H97) 1 1 5 honkParams97 11 12 (fun _ => 10) chs97 crs97 2 3 table97 s o) :
    sumcheckVerify honkParams97 (alphaPowers 11) (gateChallenges 12 3) (fun _ => 10) 3 s = .ok true ∧
    shpleminiVerify (LinearMap.mul H97 H97) 1 1 5 (chs97 s) [10, 10, 10] (fun c => commitment crs97 4 (table97 c)) s.evaluations o =
      .ok true := by
  have hch : challenges (fun _ => (10 : H97)) s.univariates = [10, 10, 10] := by rw [challenges, h.sumcheck.rounds]; rfl
  refine ⟨h.sumcheck.accepted table97_satisfied fun u hu i h1 h2 => ?_, ?_⟩
  · obtain ⟨_, _, rfl⟩ := List.mem_map.1 hu
    show (10 : H97) ≠ _
    interval_cases i <;> decide
  · have := h.opening shifted97 (by
      rw [hch]
      simpa [chs97, ch97] using good10)
    rwa [hch] at this

/-- Three parties prove the table of C103, with two variables for the rows and one beyond, and the verifier accepts. -/
example : ∃ ev : PartyID → List (Share H97) → H97 → Share H97,
    Ensures (M := MsgPcs) (fun i => coDecide (rep3Sum i) (rep3Pcs i (ev i)) honkParams97 (alphaPowers 11) (gateChallenges 12 3) (fun _ => 10)
      chs97 crs97 2 3 (columns (2 ^ 2) table97) (fun c => (columns (2 ^ 2) table97 c).map fun v => CoSumDemo.share97 v i))
      CoDemo.onesStates fun r _ => ∀ i,
        sumcheckVerify honkParams97 (alphaPowers 11) (gateChallenges 12 3) (fun _ => 10) 3 (r i).1 = .ok true ∧
        shpleminiVerify (LinearMap.mul H97 H97) 1 1 5 (chs97 (r i).1) [10, 10, 10] (fun c => commitment crs97 4 (table97 c))
          (r i).1.evaluations (r i).2 = .ok true := by
  obtain ⟨ev, hev⟩ := rep3Eval97
  refine ⟨ev, Ensures.mono (C118_decider_rep3 hev (distinct97 8 (by omega)) srs97 (LinearMap.mul H97 H97) honkParams97 11 12 (fun _ => 10)
    chs97 chs97_r 2 3 (by omega) (by omega) (by simp [crs97]) table97 (fun _ _ => rfl) (fun c _ => CoSumDemo.isShares97 _) CoDemo.corr_ones) ?_⟩
  rintro r _ ⟨s, o, hr, h⟩ i
  rw [hr i]
  exact accepted97 h

/-- The same with Shamir shares. -/
example : ∃ (ev : Fin 3 → List H97 → H97 → H97) (st : Fin 3 → Shamir.ShamirState 3 CoDemo.Ones H97), Shamir.ShCorr 1 st ∧
    Ensures (M := MsgPcs) (fun i => coDecide shamirSum (shamirPcs (ev i)) honkParams97 (alphaPowers 11) (gateChallenges 12 3) (fun _ => 10)
      chs97 crs97 2 3 (columns (2 ^ 2) table97) (columns (2 ^ 2) table97)) st fun r _ => ∀ i,
        sumcheckVerify honkParams97 (alphaPowers 11) (gateChallenges 12 3) (fun _ => 10) 3 (r i).1 = .ok true ∧
        shpleminiVerify (LinearMap.mul H97 H97) 1 1 5 (chs97 (r i).1) [10, 10, 10] (fun c => commitment crs97 4 (table97 c))
          (r i).1.evaluations (r i).2 = .ok true := by
  obtain ⟨ev, hev⟩ := shamirEval97
  obtain ⟨g, l, h1, hg, h2⟩ := Shamir.spec_preprocessingNew (M := MsgPcs) (Seed := Nat) (R := CoDemo.Ones) (F := H97) (t := 1)
    (amount := 10) CoSumDemo.points97 (by decide) (by decide) (fun i => i.val + 5) (fun _ => ())
  obtain ⟨st, -, h, -⟩ := Shamir.ofPreprocessing_spec hg
  refine ⟨ev, st, h, Ensures.mono (C118_decider_shamir hev (distinct97 8 (by omega)) srs97 (LinearMap.mul H97 H97) honkParams97 11 12
    (fun _ => 10) chs97 chs97_r 2 3 (by omega) (by omega) (by simp [crs97]) table97 (fun _ _ => rfl) (fun c _ => CoSumDemo.isShamirs97 _) h) ?_⟩
  rintro r _ ⟨s, o, hr, h⟩ i
  rw [hr i]
  exact accepted97 h

/-- The opening on its own, at other points. -/
example : ∃ (ev : PartyID → List (Share H97) → H97 → Share H97) (proof : PcsProof H97 H97),
    openTable ch97 crs97 2 [10, 11, 12] table97 = .ok proof ∧
    Ensures (M := MsgPcs) (fun i => shpleminiProve (rep3Pcs i (ev i)) ch97 crs97 2 [10, 11, 12] (Col.precomputed.map (columns (2 ^ 2) table97))
      (Col.witness.map fun c => (columns (2 ^ 2) table97 c).map fun v => CoSumDemo.share97 v i)
      (Col.toBeShifted.map fun c => (columns (2 ^ 2) table97 c).map fun v => CoSumDemo.share97 v i)) CoDemo.onesStates
      fun r _ => ∀ i, r i = proof := by
  obtain ⟨ev, hev⟩ := rep3Eval97
  obtain ⟨proof, h⟩ := C117_succeeds srs97 ch97 2 [10, 11, 12] (by omega) (by simp) (by simp [crs97]) table97 (by
    intro folds
    simp only [ch97, mul_zero, zero_add]
    decide)
  exact ⟨ev, proof, h, C118_rep3 hev ch97 crs97 2 [10, 11, 12] (by omega) (by simp) (by simp [crs97]) table97 (fun _ _ => rfl)
    (fun c _ => CoSumDemo.isShares97 _) proof h CoDemo.corr_ones⟩

end CoPcsDemo

end Verif.Honk
