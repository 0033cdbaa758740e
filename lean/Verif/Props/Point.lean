import Verif.Bridge.BridgeLemmas
import Verif.Poly.EvalLemmas
import Verif.Rep3.PointLemmas
import Verif.Shamir.PointLemmas
import Verif.Shamir.KingLemmas
import Verif.Props.Shamir

/-!
# Properties C39–C41: share translation, polynomial evaluation, shared curve points

Points are elements of an arbitrary module `V` over the scalar field `F`; in the examples `V` is the
group with seven elements.
-/

namespace Verif.Props

open PartyID

variable {n : Nat} {F V R M : Type} [Field F] [AddCommGroup V] [Module F V]

/-! ## C39 -/

/-- C39: the three parties translate a replicated sharing (of a field element or of a point) locally into
a Shamir sharing of degree one of the same value. -/
theorem C39_rep3 [DecidableEq F] (hF : PointsDistinct F 3) {s : PartyID → Share V} {v : V}
    (h : IsShare s v) :
    ∃ r : Fin 3 → V, (∀ i, Bridge.translateRepshare F (s (Bridge.party3 i)) (Bridge.party3 i) = some (r i)) ∧
      IsShamir F 1 r v := Bridge.translate_isShamir hF h

/-- C39: the same for vectors. -/
theorem C39_rep3_vec [DecidableEq F] (hF : PointsDistinct F 3) {s : PartyID → List (Share V)}
    {vs : List V} (h : IsShares s vs) :
    ∃ r : Fin 3 → List V,
      (∀ i, Bridge.translateRepshareVec F (s (Bridge.party3 i)) (Bridge.party3 i) = some (r i)) ∧
      IsShamirs F 1 r vs := Bridge.translateVec_isShamir hF h

/-- C39: an additive sharing becomes a Shamir sharing of degree one with one degree reduction. -/
theorem C39_additive [DecidableEq F] [Sample R F] [Codec M (List F)] {st : Fin 3 → Shamir.ShamirState 3 R F}
    (hst : Shamir.ShCorr 1 st) {x : PartyID → F} {v : F} (h : IsAdditive x v) :
    Ensures (M := M) (fun i => Bridge.translateAddshare (x (Bridge.party3 i))) st
      (fun r st' => IsShamir F 1 r v ∧ Shamir.ShCorr 1 st') :=
  (Bridge.spec_translateAddshare hst h).ensures

/-- C39: the same for vectors. -/
theorem C39_additive_vec [DecidableEq F] [Sample R F] [Codec M (List F)]
    {st : Fin 3 → Shamir.ShamirState 3 R F} (hst : Shamir.ShCorr 1 st) {x : PartyID → List F} {vs : List F}
    (h : ∃ l : List (PartyID → F), (x = fun i => l.map (· i)) ∧ List.Forall₂ IsAdditive l vs) :
    Ensures (M := M) (fun i => Bridge.translateAddshareVec (x (Bridge.party3 i))) st
      (fun r st' => IsShamirs F 1 r vs ∧ Shamir.ShCorr 1 st') :=
  (Bridge.spec_translateAddshareVec hst h).ensures

example : ∃ r : Fin 3 → Demo.F7, (∀ i, Bridge.translateRepshare Demo.F7 (Demo.three7 (Bridge.party3 i))
    (Bridge.party3 i) = some (r i)) ∧ IsShamir Demo.F7 1 r 3 := C39_rep3 Demo.points73 Demo.isShare_three7
example : ∃ r : Fin 3 → List Demo.F7,
    (∀ i, Bridge.translateRepshareVec Demo.F7 [Demo.three7 (Bridge.party3 i), Demo.five7 (Bridge.party3 i)]
      (Bridge.party3 i) = some (r i)) ∧ IsShamirs Demo.F7 1 r [3, 5] :=
  C39_rep3_vec Demo.points73 Demo.isShares_35
example : ∃ st : Fin 3 → Shamir.ShamirState 3 Nat Demo.F7, Shamir.ShCorr 1 st ∧
    Ensures (M := Demo.Msg) (fun i => Bridge.translateAddshare (three (2 : Demo.F7) 3 5 (Bridge.party3 i))) st
      (fun r st' => IsShamir Demo.F7 1 r 3 ∧ Shamir.ShCorr 1 st') :=
  Demo.shamir_states.imp fun _ h => ⟨h, C39_additive h (by unfold IsAdditive; decide)⟩

/-! ## C40 -/

/-- C40, Rep3: whatever the number of threads at every party and however the partial results are
grouped, the results are a sharing of the value of the polynomial. -/
theorem C40_rep3 {threads : PartyID → Nat} {s : PartyID → List (Share F)} {cs : List F}
    (h : IsShares s cs) {x : F} {r : PartyID → Share F}
    (hr : ∀ i, Poly.EvalPoly Poly.rep3Ops (threads i) (s i) x (r i)) : IsShare r (polyValue cs x) :=
  Poly.evalPoly_rep3 h hr

/-- C40, Shamir. -/
theorem C40_shamir {d : Nat} {threads : Fin n → Nat} {s : Fin n → List F} {cs : List F}
    (h : IsShamirs F d s cs) {x : F} {r : Fin n → F}
    (hr : ∀ i, Poly.EvalPoly Poly.shamirOps (threads i) (s i) x (r i)) : IsShamir F d r (polyValue cs x) :=
  Poly.evalPoly_shamir h hr

/-- C40: the evaluation gives a result for every polynomial with at least one coefficient. -/
theorem C40_result {S : Type} (ops : Poly.Ops S F) (threads : Nat) {cs : List S} (hc : cs ≠ []) (x : F) :
    ∃ r, Poly.EvalPoly ops threads cs x r := Poly.evalPoly_exists ops threads hc x

example : ∃ r : PartyID → Share Demo.F7,
    (∀ i, Poly.EvalPoly Poly.rep3Ops (i.toNat + 1) (List.replicate 40 (Demo.three7 i)) 2 (r i)) ∧
      IsShare r (polyValue (List.replicate 40 3) 2) := by
  choose r hr using fun i : PartyID => C40_result (Poly.rep3Ops (F := Demo.F7)) (i.toNat + 1)
    (cs := List.replicate 40 (Demo.three7 i)) (by simp) 2
  refine ⟨r, hr, C40_rep3 ⟨List.replicate 40 Demo.three7, by simp, ?_⟩ hr⟩
  rw [List.forall₂_iff_get]
  exact ⟨by simp, fun i _ _ => by
    simp only [List.get_eq_getElem, List.getElem_replicate]; exact Demo.isShare_three7⟩
example : ∃ r : Fin 3 → Demo.F7,
    (∀ i, Poly.EvalPoly Poly.shamirOps 2 [Demo.sh3 i, Demo.sh4 i] 5 (r i)) ∧
      IsShamir Demo.F7 1 r (3 + 4 * 5) := by
  choose r hr using fun i : Fin 3 => C40_result (Poly.shamirOps (F := Demo.F7)) 2
    (cs := [Demo.sh3 i, Demo.sh4 i]) (by simp) 5
  exact ⟨r, hr, by simpa [polyValue] using C40_shamir Demo.isShamirs_34 hr⟩

/-! ## C41, Rep3 -/

section Rep3

open Rep3.Point

variable {ty : A2BType} {st : PartyID → Rep3State R} {a a' : PartyID → Share V} {b : PartyID → Share F}
  {P Q : V} {k : F}

/-- C41: the local operations. -/
theorem C41_linear (ha : IsShare a P) (ha' : IsShare a' Q) (hb : IsShare b k) (T : V) (c : F) :
    IsShare (fun i => Rep3.Point.add (a i) (a' i)) (P + Q) ∧
    IsShare (fun i => Rep3.Point.sub (a i) (a' i)) (P - Q) ∧
    IsShare (fun i => -a i) (-P) ∧
    IsShare (fun i => addAssignPublic (a i) T i) (P + T) ∧
    IsShare (fun i => subAssignPublic (a i) T i) (P - T) ∧
    IsShare (fun i => scalarMulPublicPoint T (b i)) (k • T) ∧
    IsShare (fun i => scalarMulPublicScalar (a i) c) (c • P) :=
  ⟨ha.add ha', ha.sub ha', ha.neg, addAssignPublic_share ha T, subAssignPublic_share ha T,
    scalarMulPublicPoint_share hb T, scalarMulPublicScalar_share ha c⟩

/-- C41: a promoted point, zero included, is a sharing of that point. -/
theorem C41_promote [DecidableEq V] (gen c : V) : IsShare (fun i => promoteToTrivialShare gen i c) c :=
  promote_share gen c

/-- C41: secret scalar times secret point. -/
theorem C41_scalar_mul [Sample R V] [Codec M (List V)] (ha : IsShare a P) (hb : IsShare b k)
    (hst : Corr ty st) :
    Ensures (M := M) (fun i => scalarMul (a i) (b i)) st
      (fun r st' => IsShare r (k • P) ∧ Corr ty st') := (spec_scalarMul ha hb hst).ensures

/-- C41: the local part gives an additive sharing of the product, which `open_half_point` opens. -/
theorem C41_scalar_mul_local [Sample R V] [Codec M (List V)] (ha : IsShare a P) (hb : IsShare b k)
    (hst : Corr ty st) :
    Ensures (M := M) (fun i => scalarMulLocal (a i) (b i)) st
      (fun r st' => IsAdditive r (k • P) ∧ Corr ty st') ∧
    Ensures (M := M) (fun i => scalarMulLocal (a i) (b i) >>= openHalfPoint) st
      (fun r st' => (∀ i, r i = k • P) ∧ Corr ty st') := by
  refine ⟨(spec_scalarMulLocal ha hb hst).ensures, Spec.ensures ?_⟩
  refine Spec.bind (spec_scalarMulLocal ha hb hst) ?_
  rintro r st' ⟨h, h'⟩
  refine (spec_openHalfPoint h).mono ?_
  rintro r st'' ⟨rfl, rfl⟩
  exact ⟨fun _ => rfl, h'⟩

/-- C41: a vector of secret scalars times a vector of secret points. -/
theorem C41_scalar_mul_many [Sample R V] [Codec M (List V)] {a : PartyID → List (Share V)}
    {b : PartyID → List (Share F)} {Ps : List V} {ks : List F} (ha : IsShares a Ps)
    (hb : IsShares b ks) (hst : Corr ty st) :
    Ensures (M := M) (fun i => scalarMulMany (a i) (b i)) st
      (fun r st' => IsShares r (List.zipWith (fun P (k : F) => k • P) Ps ks) ∧ Corr ty st') :=
  (spec_scalarMulMany ha hb hst).ensures

/-- C41: opening a point. -/
theorem C41_open [Codec M (List V)] (ha : IsShare a P) :
    Ensures (M := M) (fun i => openPoint (a i)) st (fun r st' => (∀ i, r i = P) ∧ st' = st) :=
  ((spec_openPoint ha).mono fun _ _ ⟨h, h'⟩ => ⟨fun i => congrFun h i, h'⟩).ensures

/-- C41: opening a vector of points. -/
theorem C41_open_many [Codec M (List (List V))] {a : PartyID → List (Share V)} {Ps : List V}
    (ha : IsShares a Ps) :
    Ensures (M := M) (fun i => openPointMany (a i)) st (fun r st' => (∀ i, r i = Ps) ∧ st' = st) :=
  ((spec_openPointMany ha).mono fun _ _ ⟨h, h'⟩ => ⟨fun i => congrFun h i, h'⟩).ensures

/-- C41: opening a point together with a field element. -/
theorem C41_open_point_and_field [Codec M (List (V × F))] (ha : IsShare a P) (hb : IsShare b k) :
    Ensures (M := M) (fun i => openPointAndField (a i) (b i)) st
      (fun r st' => (∀ i, r i = (P, k)) ∧ st' = st) :=
  ((spec_openPointAndField ha hb).mono fun _ _ ⟨h, h'⟩ => ⟨fun i => congrFun h i, h'⟩).ensures

/-- C41: opening vectors of points and of field elements together; they may have different lengths. -/
theorem C41_open_point_and_field_many [Codec M (List (List V × List F))] {a : PartyID → List (Share V)}
    {b : PartyID → List (Share F)} {Ps : List V} {ks : List F} (ha : IsShares a Ps) (hb : IsShares b ks) :
    Ensures (M := M) (fun i => openPointAndFieldMany (a i) (b i)) st
      (fun r st' => (∀ i, r i = (Ps, ks)) ∧ st' = st) :=
  ((spec_openPointAndFieldMany ha hb).mono fun _ _ ⟨h, h'⟩ => ⟨fun i => congrFun h i, h'⟩).ensures

/-- C41: multi-scalar multiplication with public points, given that the library routine computes the sum
of the products. -/
theorem C41_msm {b : PartyID → List (Share F)} {ks : List F} (points : List V) (hb : IsShares b ks) :
    IsShare (fun i => msmPublicPoints points (b i))
      ((List.zipWith (fun P (k : F) => k • P) points ks).sum) := msm_share points hb

example : Ensures (M := Demo.Msg) (fun i => scalarMul (Demo.three7 i) (Demo.five7 i)) Demo.states
    (fun r st' => IsShare r ((5 : Demo.F7) • (3 : Demo.F7)) ∧ Corr .direct st') :=
  C41_scalar_mul Demo.isShare_three7 Demo.isShare_five7 Demo.corr_states
example : Ensures (M := Demo.Msg)
    (fun i => scalarMulMany [Demo.three7 i, Demo.five7 i] [Demo.five7 i, Demo.one7 i]) Demo.states
    (fun r st' => IsShares r [(5 : Demo.F7) • (3 : Demo.F7), (1 : Demo.F7) • 5] ∧ Corr .direct st') :=
  C41_scalar_mul_many Demo.isShares_35 Demo.isShares_51 Demo.corr_states
example : Ensures (M := Demo.Msg) (fun i => openPoint (Demo.three7 i)) Demo.states
    (fun r st' => (∀ i, r i = 3) ∧ st' = Demo.states) := C41_open Demo.isShare_three7
example : letI : Codec (List (List Demo.F7 × List Demo.F7)) (List (List Demo.F7 × List Demo.F7)) := Codec.self _
    Ensures (M := List (List Demo.F7 × List Demo.F7))
    (fun i => openPointAndFieldMany [Demo.three7 i, Demo.five7 i] [Demo.one7 i]) Demo.states
    (fun r st' => (∀ i, r i = ([3, 5], [1])) ∧ st' = Demo.states) :=
  letI : Codec (List (List Demo.F7 × List Demo.F7)) (List (List Demo.F7 × List Demo.F7)) := Codec.self _
  C41_open_point_and_field_many Demo.isShares_35 ⟨[Demo.one7], rfl, .cons Demo.isShare_one7 .nil⟩
example : IsShare (fun i => msmPublicPoints [(2 : Demo.F7), 6] [Demo.three7 i, Demo.five7 i])
    (([(3 : Demo.F7) • (2 : Demo.F7), (5 : Demo.F7) • 6] : List Demo.F7).sum) := C41_msm _ Demo.isShares_35

end Rep3

/-! ## C41, Shamir -/

section Shamir

open Shamir

variable {t : Nat} {st : Fin n → ShamirState n R F}

/-- C41, Shamir: secret scalar times secret point (the local operations and the openings of a point and of
vectors of points are those of C34 and C36). -/
theorem C41_shamir_scalar_mul [Sample R F] [Codec M (List F)] [Codec M (List V)] (hst : ShCorr t st)
    (gen : V) {a : Fin n → V} {b : Fin n → F} {P : V} {k : F} (ha : IsShamir F t a P)
    (hb : IsShamir F t b k) :
    Ensures (M := M) (fun i => Shamir.scalarMul gen (a i) (b i)) st
      (fun r st' => IsShamir F t r (k • P) ∧ ShCorr t st') := (spec_scalarMul hst gen ha hb).ensures

/-- C41, Shamir: opening a point together with a field element. -/
theorem C41_shamir_open_point_and_field [Codec M (V × F)] (hst : ShCorr t st) {a : Fin n → V}
    {b : Fin n → F} {P : V} {k : F} (ha : IsShamir F t a P) (hb : IsShamir F t b k) :
    Ensures (M := M) (fun i => Shamir.openPointAndField (a i) (b i)) st
      (fun r st' => (∀ i, r i = (P, k)) ∧ st' = st) :=
  ((Shamir.spec_openPointAndField hst ha hb).mono fun _ _ ⟨h, h'⟩ => ⟨fun i => congrFun h i, h'⟩).ensures

/-- C41, Shamir: opening vectors of points and of field elements together. -/
theorem C41_shamir_open_point_and_field_many [Codec M (List V × List F)] (hst : ShCorr t st)
    {a : Fin n → List V} {b : Fin n → List F} {Ps : List V} {ks : List F} (ha : IsShamirs F t a Ps)
    (hb : IsShamirs F t b ks) :
    Ensures (M := M) (fun i => Shamir.openPointAndFieldMany (a i) (b i)) st
      (fun r st' => (∀ i, r i = (Ps, ks)) ∧ st' = st) :=
  ((Shamir.spec_openPointAndFieldMany hst ha hb).mono
    fun _ _ ⟨h, h'⟩ => ⟨fun i => congrFun h i, h'⟩).ensures

/-- C41, Shamir: multi-scalar multiplication with public points. -/
theorem C41_shamir_msm {b : Fin n → List F} {ks : List F} (points : List V) (hb : IsShamirs F t b ks) :
    IsShamir F t (fun i => Shamir.msmPublicPoints points (b i))
      ((List.zipWith (fun P (k : F) => k • P) points ks).sum) := msm_isShamir points hb

example : ∃ st : Fin 3 → ShamirState 3 Nat Demo.F7, ShCorr 1 st ∧
    Ensures (M := Demo.Msg) (fun i => Shamir.scalarMul 1 (Demo.sh3 i) (Demo.sh4 i)) st
      (fun r st' => IsShamir Demo.F7 1 r ((4 : Demo.F7) • (3 : Demo.F7)) ∧ ShCorr 1 st') :=
  Demo.shamir_states.imp fun _ h => ⟨h, C41_shamir_scalar_mul h 1 Demo.isShamir_sh3 Demo.isShamir_sh4⟩
example : letI : Codec (List Demo.F7 × List Demo.F7) (List Demo.F7 × List Demo.F7) := Codec.self _
    ∃ st : Fin 3 → ShamirState 3 Nat Demo.F7, ShCorr 1 st ∧
    Ensures (M := List Demo.F7 × List Demo.F7)
      (fun i => Shamir.openPointAndFieldMany [Demo.sh3 i, Demo.sh4 i] [Demo.sh4 i]) st
      (fun r st' => (∀ i, r i = ([3, 4], [4])) ∧ st' = st) :=
  letI : Codec (List Demo.F7 × List Demo.F7) (List Demo.F7 × List Demo.F7) := Codec.self _
  Demo.shamir_states.imp fun _ h => ⟨h, C41_shamir_open_point_and_field_many h Demo.isShamirs_34
    ⟨[Demo.sh4], rfl, .cons Demo.isShamir_sh4 .nil⟩⟩

end Shamir

end Verif.Props
