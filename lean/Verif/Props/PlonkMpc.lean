import Verif.Props.Plonk
import Verif.Plonk.PlainSim
import Verif.Plonk.Rep3Prove
import Verif.Plonk.ShamirSim
import Verif.Shamir.SetupLemmas

/-!
# Properties: the collaborative PLONK prover
-/

namespace Verif.Props

open Verif.Plonk
open Groth16 (FftParams)

section

variable {p : Nat} [Fact p.Prime] {G H T : Type} [AddCommGroup G] [Module (ZMod p) G] [AddCommGroup H] [Module (ZMod p) H]
  [AddCommGroup T] [Module (ZMod p) T] [DecidableEq T] {pr : FftParams (ZMod p)} {key : Zkey (ZMod p) G H} {w w4 τ : ZMod p}
  {g₁ : G} {g₂ : H} {inputs wit z : List (ZMod p)}

/-- C97: the prover on values in the clear, with any sequence of random values that has no zeros.  What is hashed is fixed before the
hash function is. -/
theorem C97_plain (h : Statement pr key w w4 τ g₁ g₂ inputs wit z) (e : G →ₗ[ZMod p] H →ₗ[ZMod p] T) (x : ZMod p)
    (ρ : Nat → ZMod p) (h0 : ∀ j < key.domainSize * 222 + 15, ρ j ≠ 0) :
    ∃ q : Queries (ZMod p) G, ∀ hash, ¬ q.Exceptional key w z hash →
      ∃ proof ρ', prove plain hash pr key (x :: inputs) wit ρ = .ok (proof, ρ') ∧
        verify hash pr (fun P Q => e P Q) g₁ g₂ key.vk proof inputs = .ok () := by
  have hl : ((List.range 11).map ρ).length = 11 := by simp
  obtain ⟨q, hq⟩ := h.ok x hl
  refine ⟨q, fun hash hg => ?_⟩
  obtain ⟨π, hπ⟩ := hq hash hg
  have hv := h.verify hash x hl e hπ
  obtain ⟨dom, av, d1, d2, d3, -, -, a1, -, -⟩ := h.start
  have S := sim_plain (G := G) ρ (key.domainSize * 222 + 15)
  obtain ⟨adds, h1, h2⟩ := S.prove_eq (H := H) (fun _ _ => rfl) hash pr key x inputs (wit := fun _ => wit)
    (self_cols (a := fun _ => wit) rfl) d1 a1
  rw [proveReference, zeroFirst, ok_bind, a1, ok_bind, d1, ok_bind] at hπ
  have e1 : prove plain hash pr key (x :: inputs) wit ρ =
      proveWith plain hash key dom (0 :: inputs) wit (adds ()) ((List.range 11).map ρ) fun n => ρ (11 + n) := by
    rw [h2 ()]
    show (StateT.bind ((List.range 11).mapM (fun (_ : Nat) => plainRand)) _) ρ = _
    simp only [StateT.bind, plain_rands]
    rfl
  rw [e1]
  rcases S.proveWith (prod_plain ρ _) hash key dom d3.symm (by rw [d3]; exact hpos_of_new d1) (0 :: inputs)
    (self_cols (a := fun _ => wit) rfl) h1 (self_cols (a := fun _ => (List.range 11).map ρ) rfl) hl π hπ 0 (fun n => ρ (11 + n))
    ⟨11, rfl, by rw [d3]; omega⟩ with ⟨_, j, hj, hz⟩ | ⟨a, ρ', ha, hr, -⟩
  · exact absurd hz (h0 j hj)
  · obtain rfl : a = π := congrFun hr ()
    exact ⟨a, ρ', ha, hv⟩

/-- C97: why the random values matter: if the first one that masks a product is zero, the prover panics. -/
theorem C97_zero_random (inv : Bool) (a1 a2 a3 : List (ZMod p)) (ρ : Nat → ZMod p) (h : ρ 0 = 0) :
    (plain (G := G)).arrayProdMul inv a1 a2 a3 ρ = .error (.panic "called `Result::unwrap()` on an `Err` value") :=
  plain_zero_random inv a1 a2 a3 ρ h

/-- C98: the Rep3 prover, on shares of the witness and on eight networks, unless a challenge is exceptional: in every execution all
parties return the same proof, and it is accepted; or all parties return an error, and then one of the random values for the products
of round 2 was zero.  `ev` is the evaluation of shared polynomials, with any number of threads and any grouping of the partial sums.
What is hashed is fixed before the hash function is. -/
theorem C98_rep3 {R M : Type} (Seed : Type) [Sample R Seed] [Seedable R Seed] [Sample R (ZMod p)] [Codec M (List (ZMod p))]
    [Codec M (List G)] [Codec M (List (List G))]
    (h : Statement pr key w w4 τ g₁ g₂ inputs wit z) (e : G →ₗ[ZMod p] H →ₗ[ZMod p] T) (x : ZMod p)
    (ev : PartyID → List (Share (ZMod p)) → ZMod p → Share (ZMod p))
    (hev : ∀ i l y, l ≠ [] → ∃ threads, Verif.Poly.EvalPoly Verif.Poly.rep3Ops threads l y (ev i l y))
    {shares : PartyID → List (Share (ZMod p))} (hw : IsShares shares wit) {ty : A2BType} {st : PartyID → Rep3State R}
    (hst : Corr ty st) :
    ∃ q : Queries (ZMod p) G, ∀ hash, ¬ q.Exceptional key w z hash →
      EnsuresManyOr (MaskZero (ZMod p) Seed st key.domainSize)
        (fun i => rep3Prove (M := M) (R := R) Seed (ev i) hash pr key (x :: inputs) (shares i)) st
        (fun r _ => ∃ proof, (∀ i, r i = proof) ∧
          verify hash pr (fun P Q => e P Q) g₁ g₂ key.vk proof inputs = .ok ()) := by
  have hl : (Rep3.randValues (ZMod p) 11 st).length = 11 := by simp
  obtain ⟨q, hq⟩ := h.ok x hl
  refine ⟨q, fun hash hg => Specₙ.ensures ?_⟩
  obtain ⟨π, hπ⟩ := hq hash hg
  have hv := h.verify hash x hl e hπ
  obtain ⟨dom, av, d1, d2, d3, -, -, a1, -, -⟩ := h.start
  have S := sim_rep3 (M := M) (R := R) (F := ZMod p) (G := G) (Seed := Seed) (ty := ty) (st₀ := st) 0 False ev hev
  obtain ⟨adds, h1, h2⟩ := S.prove_eq (H := H) (fun _ _ => rfl) hash pr key x inputs hw d1 a1
  rw [proveReference, zeroFirst, ok_bind, a1, ok_bind, d1, ok_bind] at hπ
  have key' : Specₙ (MaskZero (ZMod p) Seed st key.domainSize) (fun i => prove (rep3 (M := M) (R := R) (G := G) Seed i (ev i)) hash pr key
      (x :: inputs) (shares i)) st (fun r _ => ∃ proof, (∀ i, r i = proof) ∧
          verify hash pr (fun P Q => e P Q) g₁ g₂ key.vk proof inputs = .ok ()) := by
    simp only [h2]
    have hr := spec_rands_draws (M := M) (F := ZMod p) 11 hst
    have hM : MaskZero (ZMod p) Seed st key.domainSize =
      ProductsFail (ZMod p) Seed ((Rep3.afterRand (ZMod p))^[11] st) key.domainSize := rfl
    rw [hM]
    generalize (Rep3.afterRand (ZMod p))^[11] st = s' at hr
    generalize Rep3.randValues (ZMod p) 11 st = bv at hr hl hπ
    generalize List.range 11 = l at hr
    refine Specₙ.bind (Specₙ.first (hr.specE.mono fun _ hr => .inr hr)) ?_
    rintro b _ ⟨hb, hc, rfl⟩
    have := rep3_proveWith (Seed := Seed) (M := M) ev hev hash key dom d3.symm (by rw [d3]; exact hpos_of_new d1) (0 :: inputs) hw h1 hb hl hc π hπ
    rw [d3] at this
    exact this.mono fun r s hr => ⟨π, fun i => congrFun hr.1 i, hv⟩
  obtain ⟨n, r, hr, hp⟩ := key'
  refine ⟨n, r, hr, fun C K m => ?_⟩
  have := hp C K m
  simpa only [rep3Prove, hst.id] using this

/-- C99: the Shamir prover with as many preprocessed pairs as it asks for, unless a challenge is exceptional: in every execution all
parties return the same proof, and it is accepted; or all parties return an error, and then one of the pairs is a sharing of zero.
What is hashed is fixed before the hash function is. -/
theorem C99_shamir {n t : Nat} {R M : Type} (Seed : Type) [Sample R Seed] [Seedable R Seed] [Sample R (ZMod p)]
    [Codec M (List (ZMod p))] [Codec M G] [Codec M (List G)]
    (h : Statement pr key w w4 τ g₁ g₂ inputs wit z) (e : G →ₗ[ZMod p] H →ₗ[ZMod p] T) (x : ZMod p)
    {shares : Fin n → List (ZMod p)} (hw : IsShamirs (ZMod p) t shares wit) {st : Fin n → Shamir.ShamirState n R (ZMod p)}
    (hst : Shamir.ShCorr t st) {pairs : List (Fin n → ZMod p × ZMod p)}
    (hp : Shamir.Buffered t (fun i => (st i).rng) pairs) (hl : shamirPairs key ≤ pairs.length) :
    ∃ q : Queries (ZMod p) G, ∀ hash, ¬ q.Exceptional key w z hash →
      EnsuresManyOr (∃ q ∈ pairs, IsShamir (ZMod p) t (fun i => (q i).1) 0)
        (fun i => shamirProve (M := M) (R := R) Seed hash pr key (x :: inputs) (shares i)) st
        (fun r _ => ∃ proof, (∀ i, r i = proof) ∧
          verify hash pr (fun P Q => e P Q) g₁ g₂ key.vk proof inputs = .ok ()) := by
  have hpairs : shamirPairs key = 11 + (key.domainSize * 222 + 4) := by simp only [shamirPairs]; omega
  have hr := spec_rands_inv (M := M) (l := fun _ : Fin n => List.range 11) (t := t) (buf₀ := pairs) 11
    (k := key.domainSize * 222 + 4) (by simp) (st := st) ⟨hst, pairs, hp, by rw [← hpairs]; exact hl, fun _ h => h⟩
  obtain ⟨b, hr⟩ := Spec.exists (Q := fun v r s => (v.length = 11 ∧ IsShamirs (ZMod p) t r v) ∧
    SInv t pairs (key.domainSize * 222 + 4) s) (hr.mono fun r s ⟨⟨v, h1, h2, _⟩, h3⟩ => ⟨v, ⟨h1, h2⟩, h3⟩)
  have hb : b.length = 11 := by
    obtain ⟨_, _, _, ⟨h, _⟩, _⟩ := hr
    exact h
  obtain ⟨q, hq⟩ := h.ok x hb
  refine ⟨q, fun hash hg => Specₙ.ensures ?_⟩
  obtain ⟨π, hπ⟩ := hq hash hg
  have hv := h.verify hash x hb e hπ
  obtain ⟨dom, av, d1, d2, d3, -, -, a1, -, -⟩ := h.start
  have S := sim_shamir (M := M) (R := R) (F := ZMod p) (G := G) (Seed := Seed) (t := t) (buf₀ := pairs) 0
  obtain ⟨adds, h1, h2⟩ := S.prove_eq (H := H) (fun _ _ => rfl) hash pr key x inputs hw d1 a1
  rw [proveReference, zeroFirst, ok_bind, a1, ok_bind, d1, ok_bind] at hπ
  show Specₙ _ (fun i => prove (shamir (M := M) (R := R) (G := G) Seed) hash pr key (x :: inputs) (shares i)) st _
  simp only [h2]
  refine Specₙ.bind (Specₙ.first (hr.specE.mono fun _ hr => .inr hr)) ?_
  rintro b' s ⟨⟨-, hb'⟩, hs⟩
  have := S.proveWith prod_shamir hash key dom d3.symm (by rw [d3]; exact hpos_of_new d1) (0 :: inputs) hw h1 hb' hb π hπ 0 s
    (by rw [d3]; exact hs)
  exact this.mono fun r s hr => ⟨π, fun i => congrFun hr.1 i, hv⟩

/-- C99: the preprocessing the prover runs first gives such states. -/
theorem C99_preprocessing {n t : Nat} {R M S : Type} {Seed : Type} [Sample R Seed] [Seedable R Seed] [Sample R (ZMod p)]
    [Inhabited Seed] [Codec M (List Seed)] [Codec M (List (ZMod p))] (hF : PointsDistinct (ZMod p) n) (ht : 2 * t + 1 ≤ n) (hn : t + 1 < n)
    (seed : Fin n → Seed) (st : Fin n → S) :
    Ensures (M := M) (fun i => (Shamir.preprocessingNew (ZMod p) (seed i) t (shamirPairs key) :
        MPC (Fin n) S M Err (Shamir.ShamirRng n R (ZMod p)))) st (fun g _ =>
      ∃ st' : Fin n → Shamir.ShamirState n R (ZMod p), (∀ i, Shamir.ShamirState.ofPreprocessing (g i) = some (st' i)) ∧
        Shamir.ShCorr t st' ∧
        ∃ pairs, Shamir.Buffered t (fun i => (st' i).rng) pairs ∧ shamirPairs key ≤ pairs.length) := by
  refine Ensures.mono (Shamir.spec_preprocessingNew hF ht hn seed st).ensures ?_
  rintro g _ ⟨hg, ⟨buf, hbuf, hlen⟩, -⟩
  obtain ⟨s, h1, h2, h3⟩ := Shamir.ofPreprocessing_spec hg
  refine ⟨s, h1, h2, buf, ?_, ?_⟩
  · rw [show (fun i => (s i).rng) = g from funext h3]
    exact hbuf
  · rw [hlen]; exact Shamir.divCeil_mul _ (Nat.succ_pos t)

end

end Verif.Props

/-! ## A concrete case -/

namespace Verif.Demo

open PartyID Verif.Plonk

/-- A generator that always gives one. -/
inductive Ones where
  | ones

instance onesF97 : Sample Ones F97 := ⟨fun r => (1, r)⟩
instance onesNat : Sample Ones Nat := ⟨fun r => (1, r)⟩
instance onesSeed : Seedable Ones Nat := ⟨fun _ => .ones⟩

/-- What is sent. -/
inductive PMsg where
  | f1 (x : F97)
  | f (x : List F97)
  | fs (x : List (List F97))
  | n (x : List Nat)

instance pmsgF1 : Codec PMsg F97 := ⟨.f1, fun | .f1 x => some x | _ => none, fun _ => rfl⟩
instance pmsgF : Codec PMsg (List F97) := ⟨.f, fun | .f x => some x | _ => none, fun _ => rfl⟩
instance pmsgFs : Codec PMsg (List (List F97)) := ⟨.fs, fun | .fs x => some x | _ => none, fun _ => rfl⟩
instance pmsgN : Codec PMsg (List Nat) := ⟨.n, fun | .n x => some x | _ => none, fun _ => rfl⟩

def onesStates (i : PartyID) : Rep3State Ones :=
  ⟨i, ⟨⟨.ones, .ones⟩, ⟨.ones, .ones, some .ones⟩, ⟨.ones, .ones, some .ones⟩⟩, .ones, .direct⟩

theorem corr_onesStates : Corr .direct onesStates := by
  constructor <;> (try intro i) <;> rfl

theorem onesStates_draws (n : Nat) : ¬ MaskZero F97 Nat onesStates n := by
  have h : (1 + 1 + 1 : F97) ≠ 0 := by decide
  rintro (⟨k, _, h0⟩ | ⟨k, _, h0⟩) <;> exact h h0

/-- `6 = 2 + 90 + 11` -/
def six97 : PartyID → Share F97 := three ⟨2, 11⟩ ⟨90, 2⟩ ⟨11, 90⟩
theorem isShares_six97 : IsShares (fun i => [six97 i]) [6] :=
  ⟨[six97], rfl, .cons ⟨by intro i; cases i <;> rfl, by decide⟩ .nil⟩

theorem evalExists97 : ∃ ev : PartyID → List (Share F97) → F97 → Share F97,
    ∀ i l y, l ≠ [] → ∃ threads, Verif.Poly.EvalPoly Verif.Poly.rep3Ops threads l y (ev i l y) := by
  have h : ∀ (l : List (Share F97)) (y : F97), ∃ r, l ≠ [] → ∃ threads, Verif.Poly.EvalPoly Verif.Poly.rep3Ops threads l y r := by
    intro l y
    by_cases hl : l = []
    · exact ⟨0, fun h => absurd hl h⟩
    · exact (Verif.Poly.evalPoly_exists Verif.Poly.rep3Ops 3 hl y).imp fun _ h _ => ⟨3, h⟩
  choose f hf using h
  exact ⟨fun _ => f, fun _ => hf⟩

theorem points97 : PointsDistinct F97 3 := by
  intro i j hi hj h
  have := (ZMod.natCast_eq_natCast_iff i j 97).mp h
  rw [Nat.ModEq, Nat.mod_eq_of_lt (by omega), Nat.mod_eq_of_lt (by omega)] at this
  exact this

/-- Shares of `6` by `6 + 30 x` for three parties. -/
def shamir97 (i : Fin 3) : F97 := 6 + 30 * ((i.val + 1 : Nat) : F97)
theorem isShamirs_six97 : IsShamirs F97 1 (fun i => [shamir97 i]) [6] :=
  ⟨[shamir97], rfl, .cons ⟨fun k => if k = 0 then 6 else 30, rfl,
    fun i => by simp [polyAt, Finset.sum_range_succ, shamir97]; ring⟩ .nil⟩

/-- Enough pairs, none of which shares zero. -/
theorem shamirStates97 : ∃ (st : Fin 3 → Shamir.ShamirState 3 Ones F97) (pairs : List (Fin 3 → F97 × F97)),
    Shamir.ShCorr 1 st ∧ Shamir.Buffered 1 (fun i => (st i).rng) pairs ∧ shamirPairs key97 ≤ pairs.length ∧
    ¬ ∃ q ∈ pairs, IsShamir F97 1 (fun i => (q i).1) 0 := by
  obtain ⟨g, l, h1, hg, h2⟩ := Shamir.spec_preprocessingNew (M := PMsg) (Seed := Nat) (R := Ones) (F := F97) (t := 1)
    (amount := 10) points97 (by decide) (by decide) (fun i => i.val + 5) (fun _ => ())
  obtain ⟨st, -, h, -⟩ := Shamir.ofPreprocessing_spec hg
  have hp : ∀ p ∈ List.replicate (shamirPairs key97) (fun _ : Fin 3 => ((1, 1) : F97 × F97)), IsPair 1 p := by
    intro p hp
    rw [List.eq_of_mem_replicate hp]
    exact ⟨1, IsShamir.const _ _, IsShamir.const _ _⟩
  refine ⟨Shamir.setBuf st (List.replicate (shamirPairs key97) fun _ => (1, 1)), _, h.setBuf hp,
    ⟨fun _ => rfl, fun _ => rfl, hp⟩, by rw [List.length_replicate], ?_⟩
  rintro ⟨q, hq, h0⟩
  rw [List.eq_of_mem_replicate hq] at h0
  obtain ⟨c, hc, hs⟩ := h0
  have h1 := hs 0
  have h2 := hs 1
  simp [polyAt, Finset.sum_range_succ, hc] at h1 h2
  rw [← h1] at h2
  exact absurd h2 (by decide)

end Verif.Demo

namespace Verif.Props

open Verif.Plonk Verif.Demo

example := (C97_plain statement97 pairing97 1 (fun _ => 1) (fun _ _ => by decide)).elim fun q h => h hash97 (usual97 q)
example := C97_zero_random (p := 97) (G := F97) false [1, 2] [3, 4] [5, 6] (fun n => n) rfl
example := evalExists97.imp fun ev hev => And.intro (onesStates_draws 8)
  ((C98_rep3 (M := PMsg) Nat statement97 pairing97 1 ev hev isShares_six97 corr_onesStates).imp fun q h => h hash97 (usual97 q))
example := shamirStates97.imp fun _ h => h.imp fun _ h => And.intro h.2.2.2
  ((C99_shamir (M := PMsg) Nat statement97 pairing97 1 isShamirs_six97 h.1 h.2.1 h.2.2.1).imp fun q h => h hash97 (usual97 q))
example := C99_preprocessing (R := Ones) (M := PMsg) (key := key97) (n := 3) (t := 1) points97 (by decide) (by decide)
  (fun i => i.val) fun _ => ()

end Verif.Props
