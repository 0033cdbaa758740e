import Verif.CoCircom.SharedLemmas
import Verif.Props.Sharing
import Verif.Props.Shamir
import Verif.Props.Groth16
import Verif.Props.Input

/-!
# Properties C90 and C91: shared witnesses, and proofs from inputs

`Verif/Spec/Witness.lean` says what it means that the parties hold a witness in one of the four forms (`Represents`), and
which form belongs to which compression.
-/

namespace Verif.Props

open PartyID Verif.CoCircom Verif.Groth16
open Verif.Shamir (ShamirState ShCorr)
open Spec.Input (GoodNames Agree Union)

variable {F R R' Seed M S P : Type}

/-! ## C90 -/

section Deal

/-- C90: the dealer gives all parties the first `n` values in the clear, and the other values in the form that was asked
for. -/
theorem C90_share [AddCommGroup F] [Sample R F] [Sample R' F] [Sample R' Seed] [Seedable R Seed] {values : List F} {n : Nat}
    (h : n ≤ values.length) (rng : R') (c : Compression) :
    ∃ w : PartyID → CompressedWitness F Seed, shareRep3 R values n rng c = .ok w ∧
      (∀ i, (w i).publicInputs = values.take n) ∧ (∀ i, ShareVec.Form c (w i).witness) ∧
      Represents R (fun i => (w i).witness) (values.drop n) := by
  have e : splitValues values n = .ok (values.take n, values.drop n) := by rw [splitValues, if_neg (by omega)]
  refine ⟨fun i => ⟨values.take n, shareVec R (values.drop n) rng c i⟩, ?_, fun _ => rfl, fun i => ?_, ?_⟩
  · rw [shareRep3, e]; rfl
  · cases c <;> trivial
  · cases c with
    | none => exact .replicated (C01_elements _ _).1
    | halfShares => exact .additive (C02_additive_vec _ _)
    | seededShares =>
      obtain ⟨sh, h1, -, h2, -⟩ := C02_seeded_vec (R := R) (Seed := Seed) (values.drop n) rng
      exact .seededReplicated h1 h2
    | seededHalfShares =>
      obtain ⟨h1, h2⟩ := C02_seeded_additive_vec (R := R) (Seed := Seed) (values.drop n) rng
      exact .seededAdditive (isAdditives_of h1 h2)

/-- C90: the same without compression, for the type that the prover takes. -/
theorem C90_share_plain [AddCommGroup F] [Sample R' F] {values : List F} {n : Nat} (h : n ≤ values.length) (rng : R') :
    ∃ w : PartyID → SharedWitness F (Share F), shareRep3Plain values n rng = .ok w ∧
      (∀ i, (w i).publicInputs = values.take n) ∧ IsShares (fun i => (w i).witness) (values.drop n) := by
  refine ⟨fun i => ⟨values.take n, (Rep3.shareElements (values.drop n) rng).1 i⟩, ?_, fun _ => rfl, (C01_elements _ _).1⟩
  rw [shareRep3Plain, splitValues, if_neg (by omega)]
  rfl

/-- C90: any number of parties and any degree with Shamir shares. -/
theorem C90_share_shamir [Field F] [Sample R' F] {values : List F} {n : Nat} (h : n ≤ values.length) (d parties : Nat)
    (rng : R') :
    ∃ w : Fin parties → SharedWitness F F, shareShamir values n d parties rng = .ok (List.ofFn w) ∧
      (∀ i, (w i).publicInputs = values.take n) ∧ IsShamirs F d (fun i => (w i).witness) (values.drop n) := by
  obtain ⟨s, h1, h2⟩ := C32_share_vec (F := F) (n := parties) (values.drop n) d rng
  refine ⟨fun i => ⟨values.take n, s i⟩, ?_, fun _ => rfl, h2⟩
  have e : splitValues values n = .ok (values.take n, values.drop n) := by rw [splitValues, if_neg (by omega)]
  rw [shareShamir, e]
  show Except.ok ((Shamir.shareMany F (values.drop n) d parties rng).1.map _) = _
  rw [h1, List.map_ofFn]
  rfl

/-- C90: the dealer panics if there are fewer values than public inputs, and only then. -/
theorem C90_too_few [Field F] [Sample R F] [Sample R' F] [Sample R' Seed] [Seedable R Seed] {values : List F} {n : Nat}
    (h : values.length < n) (rng : R') (c : Compression) (d parties : Nat) :
    let e := Err.panic "range end index out of range for slice"
    shareRep3 (Seed := Seed) R values n rng c = .error e ∧ shareRep3Plain values n rng = .error e ∧
      shareShamir values n d parties rng = .error e := by
  have e : splitValues values n = .error (.panic "range end index out of range for slice") := by
    rw [splitValues, if_pos h]
  exact ⟨by rw [shareRep3, e]; rfl, by rw [shareRep3Plain, e]; rfl, by rw [shareShamir, e]; rfl⟩

/-- C90: in whatever form the parties hold the witness, its additive half is an additive sharing of the same values. -/
theorem C90_additive [AddCommGroup F] [Sample R F] [Seedable R Seed] {w : PartyID → CompressedWitness F Seed}
    {ws : List F} (h : Represents R (fun i => (w i).witness) ws) :
    (∀ i, (additiveShares R (w i)).publicInputs = (w i).publicInputs) ∧
      IsAdditives (fun i => (additiveShares R (w i)).witness) ws := by
  refine ⟨fun _ => rfl, ?_⟩
  have shares : ∀ {s : PartyID → List (Share F)}, IsShares s ws → IsAdditives (fun i => (s i).map Share.a) ws := by
    rintro _ ⟨l, rfl, hl⟩
    refine ⟨l.map fun x i => (x i).a, by funext i; simp, ?_⟩
    rw [List.forall₂_map_left_iff]
    exact hl.imp fun x v hx => hx.2
  generalize hv : (fun i => (w i).witness) = v at h
  have hv : ∀ i, (w i).witness = v i := fun i => congrFun hv i
  simp only [additiveShares, hv]
  cases h with
  | replicated h => exact shares h
  | @seededReplicated s e _ he h =>
    have : (fun i => (s i).a.expandVec R) = fun i => (e i).map Share.a := by
      funext i
      have := he i
      simp only [Rep3.ReplicatedSeed.expandVec] at this
      split at this
      · cases this
      · rename_i hl
        rw [← Except.ok.inj this]
        refine List.ext_getElem (by simp at hl ⊢; omega) fun k h1 h2 => by simp
    show IsAdditives (fun i => (s i).a.expandVec R) ws
    rw [this]
    exact shares h
  | additive h => exact h
  | seededAdditive h => exact h

end Deal

section Expand

variable [CommRing F] [Sample R F] [Seedable R Seed] [Codec M (List F)] {st : PartyID → Rep3State R}

/-- C90: in whatever form the parties hold the witness, after expanding they hold replicated shares of it. -/
theorem C90_uncompress {w : PartyID → CompressedWitness F Seed} {pub ws : List F} (hp : ∀ i, (w i).publicInputs = pub)
    (h : Represents R (fun i => (w i).witness) ws) :
    Ensures (M := M) (fun i => uncompress (w i)) st
      (fun r st' => (∀ i, (r i).publicInputs = pub) ∧ IsShares (fun i => (r i).witness) ws ∧ st' = st) :=
  (spec_uncompress hp h).ensures

/-- C90: dealing and expanding, for all compressions. -/
theorem C90_share_uncompress [Sample R' F] [Sample R' Seed] {values : List F} {n : Nat} {rng : R'} {c : Compression}
    {w : PartyID → CompressedWitness F Seed} (h : shareRep3 R values n rng c = .ok w) :
    Ensures (M := M) (fun i => uncompress (w i)) st (fun r st' =>
      (∀ i, (r i).publicInputs = values.take n) ∧ IsShares (fun i => (r i).witness) (values.drop n) ∧ st' = st) := by
  have hn : n ≤ values.length := by
    by_contra hn
    rw [shareRep3, splitValues, if_pos (by omega)] at h
    cases h
  obtain ⟨w', h1, h2, -, h3⟩ := C90_share (R := R) (Seed := Seed) hn rng c
  obtain rfl := Except.ok.inj (h.symm.trans h1)
  exact C90_uncompress h2 h3

end Expand

section Translate

variable [Field F] [DecidableEq F] [Inhabited Seed] [Sample R Seed] [Seedable R Seed] [Sample R F]
  [Codec M (List Seed)] [Codec M (List F)] {st : Fin 3 → S}

/-- C90: in whatever form the parties hold the witness, after the translation they hold Shamir shares of degree one of
it. -/
theorem C90_translate (hF : PointsDistinct F 3) (seed : Fin 3 → Seed) {w : PartyID → CompressedWitness F Seed}
    {pub ws : List F} (hp : ∀ i, (w i).publicInputs = pub) (h : Represents R (fun i => (w i).witness) ws) :
    Ensures (M := M) (fun i => translateWitness (S := S) R (seed i) (w (Bridge.party3 i))) st
      (fun r st' => (∀ i, (r i).publicInputs = pub) ∧ IsShamirs F 1 (fun i => (r i).witness) ws ∧ st' = st) :=
  (spec_translateWitness hF seed hp h).ensures

end Translate

/-- C90: a batch with at least one public position and rows of one length `n` becomes `n` witnesses; witness `b` has
entry `b` of every row, in order. -/
theorem C90_unbatch {w : SharedWitness (List P) (List S)} {n : Nat} (h0 : w.publicInputs ≠ []) (hp : Rows n w.publicInputs)
    (hw : Rows n w.witness) :
    ∃ r, unbatch w = .ok r ∧ r.length = n ∧ ∀ b < n, ∃ s, r[b]? = some s ∧ IsColumn w.publicInputs b s.publicInputs ∧
      IsColumn w.witness b s.witness := by
  obtain ⟨_ | ⟨first, more⟩, wit⟩ := w
  · exact absurd rfl h0
  have hf : first.length = n := hp first (by simp)
  obtain ⟨r₁, e₁⟩ := unbatchLoop_total (rows := List.replicate n []) hp
  obtain ⟨r₂, e₂⟩ := unbatchLoop_total (rows := List.replicate n []) hw
  obtain ⟨-, l₁, k₁⟩ := unbatchLoop_ok (by simp) e₁
  obtain ⟨-, l₂, k₂⟩ := unbatchLoop_ok (by simp) e₂
  refine ⟨(r₁.zip r₂).map fun x => ⟨x.1, x.2⟩, ?_, by simp [l₁, l₂], fun b hb => ?_⟩
  · simp only at e₁ e₂
    rw [unbatch, hf, e₁]
    show (do let witnesses ← unbatchLoop n (List.replicate n []) wit; _) = _
    rw [e₂]
    rfl
  · obtain ⟨y₁, h1, c₁⟩ := k₁ b [] (by simp [hb])
    obtain ⟨y₂, h2, c₂⟩ := k₂ b [] (by simp [hb])
    refine ⟨⟨y₁, y₂⟩, ?_, c₁, c₂⟩
    simp only [List.nil_append] at h1 h2
    simp [List.getElem?_map, List.zip, List.getElem?_zipWith, h1, h2]

/-- C90: `unbatch` panics on all other batches. -/
theorem C90_unbatch_panic {w : SharedWitness (List P) (List S)}
    (h : ¬ ∃ n, w.publicInputs ≠ [] ∧ Rows n w.publicInputs ∧ Rows n w.witness) : ∃ m, unbatch w = .error (.panic m) := by
  obtain ⟨_ | ⟨first, more⟩, wit⟩ := w
  · exact ⟨_, rfl⟩
  refine ⟨"batch size not consistent in batched witness", ?_⟩
  by_cases hp : Rows first.length (first :: more)
  · have hw : ¬ Rows first.length wit := fun hw => h ⟨_, by simp, hp, hw⟩
    obtain ⟨r₁, e₁⟩ := unbatchLoop_total (rows := List.replicate first.length []) hp
    rw [unbatch, e₁]
    show (do let witnesses ← unbatchLoop _ _ wit; _) = _
    rw [unbatchLoop_panic hw]
    rfl
  · rw [unbatch, unbatchLoop_panic hp]
    rfl

/-- C90: the public inputs for the verifier are those after the constant at position zero. -/
theorem C90_verify_inputs (w : SharedWitness P S) (l : List P) :
    publicInputsForVerify w = .ok l ↔ ∃ one, w.publicInputs = one :: l := by
  obtain ⟨_ | ⟨one, rest⟩, wit⟩ := w
  · simp [publicInputsForVerify]
  · simp [publicInputsForVerify]

/-! ## C91 -/

section Prove

variable {p : Nat} [Fact p.Prime] {pr : FftParams (ZMod p)} {m : Matrices (ZMod p)} {x : Toxic (ZMod p)}
  {G₁ G₂ GT J : Type} [AddCommGroup G₁] [Module (ZMod p) G₁] [AddCommGroup G₂] [Module (ZMod p) G₂]
  [AddCommGroup GT] [Module (ZMod p) GT] {g₁ : G₁} {g₂ : G₂} {pk : ProvingKey G₁ G₂} {inputs ws : List (ZMod p)}
  [Codec J G₁] [Codec J G₂] [Codec M (List (ZMod p))]

section Rep3

variable [SampleVec R (ZMod p)] [Sample R G₁] [Codec M (List G₁)] [Codec M (List G₂)] {ty : A2BType}
  {st : PartyID → Rep3State R}

/-- C91: a witness that satisfies the constraints is dealt in any form; the parties expand it and prove.  For all states
of the generators the parties get the same proof, and the verifier accepts it for the public inputs. -/
theorem C91_rep3 [Sample R (ZMod p)] [Sample R' (ZMod p)] [Sample R' Seed] [Seedable R Seed] {w v : ZMod p}
    (h : Statement pr m w x g₁ g₂ pk inputs ws) (hp : m.power < pr.twoAdicity)
    (hr : groth16RootsOfUnity pr m.power = some (w, v)) (hc : IsCircomKey m v x g₁ pk) {rng : R'} {c : Compression}
    {sh : PartyID → CompressedWitness (ZMod p) Seed}
    (hs : shareRep3 R (1 :: inputs ++ ws) (inputs.length + 1) rng c = .ok sh) (e : G₁ →ₗ[ZMod p] G₂ →ₗ[ZMod p] GT) :
    Ensures (M := M) (fun i => uncompress (sh i)) st (fun r _ =>
      (∀ i, publicInputsForVerify (r i) = .ok inputs) ∧
      ∀ st₀ st₁ : PartyID → Rep3State R, Corr ty st₀ → Corr ty st₁ → EnsuresTwo (M := M) (J := J)
        (fun i => proveInner (circomWitnessMap pr (rep3 G₁ G₂)) (rep3 G₁ G₂) pk m (r i).publicInputs (r i).witness) st₀ st₁
        (fun πs _ _ => AllVerify e pk inputs πs)) := by
  refine (C90_share_uncompress hs).mono ?_
  rintro r s ⟨h1, h2, -⟩
  have e1 : (1 :: inputs ++ ws).take (inputs.length + 1) = 1 :: inputs := by simp
  have e2 : (1 :: inputs ++ ws).drop (inputs.length + 1) = ws := by simp
  rw [e1] at h1
  rw [e2] at h2
  refine ⟨fun i => (C90_verify_inputs _ _).mpr ⟨1, h1 i⟩, fun st₀ st₁ h₀ h₁ => ?_⟩
  simp only [h1]
  exact C78_rep3_circom h hp hr hc h2 h₀ h₁ e

end Rep3

section Shamir

variable [Inhabited Seed] [Sample R Seed] [Seedable R Seed] [Sample R (ZMod p)] [Codec M (List Seed)] [Codec M G₁]
  [Codec M G₂] [Codec M (List G₁)] {st : Fin 3 → S} (gen : G₁)

/-- C91: the same if the parties translate to Shamir shares first. -/
theorem C91_translate [Sample R' (ZMod p)] [Sample R' Seed] (hF : PointsDistinct (ZMod p) 3) (seed : Fin 3 → Seed) {w v : ZMod p}
    (h : Statement pr m w x g₁ g₂ pk inputs ws) (hp : m.power < pr.twoAdicity)
    (hr : groth16RootsOfUnity pr m.power = some (w, v)) (hc : IsCircomKey m v x g₁ pk) {rng : R'} {c : Compression}
    {sh : PartyID → CompressedWitness (ZMod p) Seed}
    (hs : shareRep3 R (1 :: inputs ++ ws) (inputs.length + 1) rng c = .ok sh) (e : G₁ →ₗ[ZMod p] G₂ →ₗ[ZMod p] GT) :
    Ensures (M := M) (fun i => translateWitness (S := S) R (seed i) (sh (Bridge.party3 i))) st (fun r _ =>
      (∀ i, publicInputsForVerify (r i) = .ok inputs) ∧
      ∀ st₀ st₁ : Fin 3 → ShamirState 3 R (ZMod p), ShCorr 1 st₀ → ShCorr 1 st₁ → EnsuresTwo (M := M) (J := J)
        (fun i => proveInner (circomWitnessMap pr (shamir G₂ gen)) (shamir G₂ gen) pk m (r i).publicInputs (r i).witness)
        st₀ st₁ (fun πs _ _ => AllVerify e pk inputs πs)) := by
  obtain ⟨w', h1, h2, -, h3⟩ := C90_share (Seed := Seed) (values := 1 :: inputs ++ ws) (n := inputs.length + 1) (R := R)
    (by simp) rng c
  obtain rfl := Except.ok.inj (hs.symm.trans h1)
  have e1 : (1 :: inputs ++ ws).take (inputs.length + 1) = 1 :: inputs := by simp
  have e2 : (1 :: inputs ++ ws).drop (inputs.length + 1) = ws := by simp
  rw [e1] at h2
  rw [e2] at h3
  refine (C90_translate hF seed h2 h3).mono ?_
  rintro r s ⟨h1, h2, -⟩
  refine ⟨fun i => (C90_verify_inputs _ _).mpr ⟨1, h1 i⟩, fun st₀ st₁ h₀ h₁ => ?_⟩
  simp only [h1]
  exact C78_shamir_circom gen h hp hr hc h2 h₀ h₁ e

end Shamir

section Json

open Verif.CircomVm

variable [SampleVec R (ZMod p)] [Sample R (ZMod p)] [Sample R G₁] [Codec M (List G₁)] [Codec M (List G₂)] {ty : A2BType}
  {st st₁ : PartyID → Rep3State R} {width : Nat} [Rep3.HasSqrt (ZMod p)] [Sample R (BitVec width)] [UintCodec M width]
  [Yao.YaoRng R] [Yao.YaoNet M] [Codec J (Share (BitVec width))] {rd : Readers (ZMod p)} {pub : List String}

/-- C91: users split their inputs, the parties merge them, extend the witness and prove.  If the marked run on the union
of the inputs gives a witness that satisfies the constraints, then all parties get the same proof, and the verifier
accepts it for the public values of that run. -/
theorem C91_inputs (ho : p % 2 = 1) (hw : modBits p + 2 ≤ width) (hH : Yao.HashSeparates (Yao.YaoNet.hash M))
    {c : RefCfg} (prog : Program) (ctx : Ctx (ZMod p)) (config : List Bool) {fuel fuel' : Nat} (hf : fuel ≤ fuel')
    {users : List (List (String × Json))} {ss : List (PartyID → Rep3SharedInput p)} (hg : ∀ u ∈ users, GoodNames u)
    (hu : List.Forall₂ (fun u s => ∃ rng : R, splitInput rd pub u rng = .ok s) users ss)
    (ha : users.Pairwise (Agree rd pub)) {ins : List (String × InputVal (ZMod p) (ZMod p))} (hi : Union rd pub users ins)
    (hrun : run (ref p c) prog ctx config fuel (vmInputs ins) (countPublic ins) = .ok (1 :: inputs, ws))
    (hst : Corr ty st) (hst₁ : Corr ty st₁) {w v : ZMod p} (h : Statement pr m w x g₁ g₂ pk inputs ws)
    (hp : m.power < pr.twoAdicity) (hr : groth16RootsOfUnity pr m.power = some (w, v)) (hc : IsCircomKey m v x g₁ pk)
    (e : G₁ →ₗ[ZMod p] G₂ →ₗ[ZMod p] GT) :
    ∃ r : PartyID → Rep3SharedInput p, (∀ i, mergeInputShares pub (ss.map (· i)) = .ok (r i)) ∧
      EnsuresTwoOr (c.randomized = true) (M := M) (J := J)
        (fun i => generateWitness (CircomVm.rep3 width) prog ctx config fuel' (r i)) st st₁ (fun z _ _ =>
        ∀ st₀ st₁ : PartyID → Rep3State R, Corr ty st₀ → Corr ty st₁ → EnsuresTwo (M := M) (J := J)
          (fun i => proveInner (circomWitnessMap pr (rep3 G₁ G₂)) (rep3 G₁ G₂) pk m (z i).1 (z i).2) st₀ st₁
          (fun πs _ _ => AllVerify e pk inputs πs)) := by
  obtain ⟨r, h1, h2⟩ := C89_collaborative (M := M) (J := J) ho hw hH prog ctx config hf hg hu ha hi hrun hst hst₁
  refine ⟨r, h1, h2.imp_left fun h2 => EnsuresTwo.imp h2 ?_⟩
  rintro z s s' ⟨⟨h3, h4⟩, -, -⟩ st₀ st₁ h₀ h₁
  simp only [h3]
  exact C78_rep3_circom h hp hr hc h4 h₀ h₁ e

end Json

end Prove

/-! ## Instances -/

namespace WitnessDemo

open Verif.Demo Verif.CircomVm

/-- Messages of both demonstrations. -/
inductive Both where
  | a (m : Msg)
  | b (m : GMsg)

instance {α : Type} [Codec GMsg α] : Codec Both α :=
  ⟨fun x => .b (Codec.enc x), fun | .b m => Codec.dec m | _ => none, fun _ => by simp⟩

instance : Yao.YaoNet Both where
  hash _ x := x
  digest x := BitVec.ofNat 256 x.length
  labels := ⟨fun x => .a (Codec.enc x), fun | .a m => Codec.dec m | _ => none, fun _ => by simp⟩
  digests := ⟨fun x => .a (Codec.enc x), fun | .a m => Codec.dec m | _ => none, fun _ => by simp⟩

instance {w : Nat} : UintCodec Both w where
  one := ⟨fun x => .a (Codec.enc x), fun | .a m => Codec.dec m | _ => none, fun _ => by simp⟩
  pair := ⟨fun x => .a (Codec.enc x), fun | .a m => Codec.dec m | _ => none, fun _ => by simp⟩
  vec := ⟨fun x => .a (Codec.enc x), fun | .a m => Codec.dec m | _ => none, fun _ => by simp⟩
  vecs := ⟨fun x => .a (Codec.enc x), fun | .a m => Codec.dec m | _ => none, fun _ => by simp⟩

theorem both_hash : Yao.HashSeparates (Yao.YaoNet.hash Both) := by
  intro i x y h e
  exact h (congrArg Yao.Label.color e)

/-- What the workers return. -/
inductive Results where
  | g (x : F41)
  | s (w : Nat) (x : Share (BitVec w))

instance : Codec Results F41 := ⟨.g, fun | .g x => some x | _ => none, fun _ => rfl⟩
instance {w : Nat} : Codec Results (Share (BitVec w)) :=
  ⟨.s w, fun | .s w' x => if h : w' = w then some (h ▸ x) else none | _ => none, fun _ => by simp⟩

noncomputable instance : Rep3.HasSqrt F41 where
  sqrt x := if h : ∃ y, y * y = x then some h.choose else none
  sqrt_some x y h := by
    split at h
    · rename_i hx
      rw [← Option.some.inj h]
      exact hx.choose_spec
    · cases h
  sqrt_none x h := by
    split at h
    · cases h
    · assumption

/-- `y <== x * x` -/
def squareProgram : Program where
  main := "Main"
  amountSignals := 3
  signalToWitness := [0, 1, 2]
  mainInputs := 1
  mainOutputs := 1
  mainInputList := [("x", 2, 1)]

def squareCtx : Ctx F41 where
  constants := [0, 1]
  strings := 0
  funDecls _ := none
  templDecls _ := some ⟨"Main", 1, 1, 1, [], [.pushIndex 1, .loadSignals 1, .pushIndex 1, .loadSignals 1, .bin .mul,
    .pushIndex 0, .storeSignals 1, .ret]⟩
  accel := ⟨true, true, true, true, true⟩
  leakyLogs := false

def rd41 : Readers F41 where
  dec
    | ['6'] => some 6
    | _ => none
  hex _ := none

/-- `{"x": "6"}` -/
def six : List (String × Json) := [("x", .str "6")]

theorem good_six : GoodNames six := ⟨by decide, by decide⟩

theorem union_six : [six].Pairwise (Agree rd41 []) ∧ Union rd41 [] [six] [("x", .shared 6)] :=
  union_of_merge (ms := [_]) (by simpa using good_six) (.cons rfl .nil) rfl

end WitnessDemo

open WitnessDemo Verif.Demo

/-- Four compressions of `[1, 36, 6]` with two public values. -/
example (c : Compression) : ∃ w : PartyID → CompressedWitness F41 Nat, shareRep3 Nat [1, 36, 6] 2 (9 : Nat) c = .ok w ∧
    Ensures (M := GMsg) (fun i => uncompress (w i)) states (fun r st' =>
      (∀ i, (r i).publicInputs = [1, 36]) ∧ IsShares (fun i => (r i).witness) [6] ∧ st' = states) := by
  obtain ⟨w, h1, -⟩ := C90_share (R := Nat) (Seed := Nat) (values := [1, 36, (6 : F41)]) (n := 2) (by decide) (9 : Nat) c
  exact ⟨w, h1, C90_share_uncompress h1⟩

example (c : Compression) : ∃ w : PartyID → CompressedWitness F41 Nat, shareRep3 Nat [1, 36, 6] 2 (9 : Nat) c = .ok w ∧
    IsAdditives (fun i => (additiveShares Nat (w i)).witness) [6] ∧
    Ensures (M := GMsg) (fun i => translateWitness Nat i.val (w (Bridge.party3 i))) (fun _ => ()) (fun r st' =>
      (∀ i, (r i).publicInputs = [1, 36]) ∧ IsShamirs F41 1 (fun i => (r i).witness) [6] ∧ st' = fun _ => ()) := by
  obtain ⟨w, h1, h2, -, h3⟩ := C90_share (R := Nat) (Seed := Nat) (values := [1, 36, (6 : F41)]) (n := 2) (by decide)
    (9 : Nat) c
  exact ⟨w, h1, (C90_additive h3).2, C90_translate points41 (fun i => i.val) h2 h3⟩

example := C90_share_plain (R' := Nat) (values := [1, 36, (6 : F41)]) (n := 2) (by decide) 9
example := C90_share_shamir (R' := Nat) (values := [1, 36, (6 : F41)]) (n := 2) (by decide) 2 5 9
example := C90_too_few (R := Nat) (R' := Nat) (Seed := Nat) (values := [1, (36 : F41)]) (n := 3) (by decide) 9 .none 1 3

example : unbatch ⟨[[1, 1], [36, 25]], [[6, 5]]⟩ = .ok [⟨[1, 36], [6]⟩, ⟨[1, 25], [5]⟩] := rfl
example := C90_unbatch (w := ⟨[[1, 1], [36, 25]], [[6, 5]]⟩) (n := 2) (by simp) (by simp [Rows]) (by simp [Rows])
example : ∃ m, unbatch ⟨[[1, 1], [36, 25]], [[6]]⟩ = .error (.panic m) := C90_unbatch_panic fun ⟨n, _, h1, h2⟩ => by
  have a := h1 [1, 1] (by simp)
  have b := h2 [6] (by simp)
  simp at a b
  omega
example : publicInputsForVerify (⟨[1, 36], [6]⟩ : SharedWitness Nat Nat) = .ok [36] := (C90_verify_inputs _ _).mpr ⟨1, rfl⟩

/-- The witness `1, 36, 6` of `x * x = y` from the dealer to an accepted proof. -/
example (c : Compression) {sh : PartyID → CompressedWitness F41 Nat} (hs : shareRep3 Nat [1, 36, 6] 2 (9 : Nat) c = .ok sh) :
    Ensures (M := GMsg) (fun i => uncompress (sh i)) states (fun r _ =>
      (∀ i, publicInputsForVerify (r i) = .ok [36]) ∧
      ∀ st₀ st₁ : PartyID → Rep3State Nat, Corr .direct st₀ → Corr .direct st₁ → EnsuresTwo (M := GMsg) (J := GMsg)
        (fun i => proveInner (circomWitnessMap params41 (rep3 F41 F41)) (rep3 F41 F41) circomKey41 square41
          (r i).publicInputs (r i).witness) st₀ st₁ (fun πs _ _ => AllVerify pairing41 circomKey41 [36] πs)) :=
  C91_rep3 (ws := [6]) (statement41 (by decide)) (by rw [square41_power]; decide) roots41 rfl hs _

example (c : Compression) {sh : PartyID → CompressedWitness F41 Nat} (hs : shareRep3 Nat [1, 36, 6] 2 (9 : Nat) c = .ok sh) :=
  C91_translate (M := GMsg) (J := GMsg) (G₂ := F41) (GT := F41) (R := Nat) (st := fun _ => ()) (1 : F41) points41
    (fun i => i.val) (ws := [6]) (statement41 (by decide)) (by rw [square41_power]; decide) roots41 (pk := circomKey41) rfl hs
    pairing41

/-- One user sends `x = 6` as a secret, and the parties prove that they know a root of `36`. -/
example {ss : List (PartyID → Rep3SharedInput 41)}
    (h : List.Forall₂ (fun u s => ∃ rng : Nat, splitInput rd41 [] u rng = .ok s) [six] ss) :
    ∃ r : PartyID → Rep3SharedInput 41, (∀ i, mergeInputShares [] (ss.map (· i)) = .ok (r i)) ∧
      EnsuresTwoOr (false = true) (M := Both) (J := Results)
        (fun i => generateWitness (CircomVm.rep3 8) squareProgram squareCtx [] 100 (r i)) states states (fun z _ _ =>
        ∀ st₀ st₁ : PartyID → Rep3State Nat, Corr .direct st₀ → Corr .direct st₁ → EnsuresTwo (M := Both) (J := Results)
          (fun i => proveInner (circomWitnessMap params41 (rep3 F41 F41)) (rep3 F41 F41) circomKey41 square41 (z i).1
            (z i).2) st₀ st₁ (fun πs _ _ => AllVerify pairing41 circomKey41 [36] πs)) :=
  C91_inputs (M := Both) (J := Results) (width := 8) (c := ⟨false, false⟩) rfl (by decide) both_hash squareProgram squareCtx []
    (le_refl 100) (by simpa using good_six) h union_six.1 union_six.2 (inputs := [36]) (ws := [6]) rfl corr_states
    corr_states (statement41 (by decide)) (by rw [square41_power]; decide) roots41 rfl _

end Verif.Props
