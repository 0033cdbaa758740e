import Verif.Gadgets.Poseidon2Exhausted
import Verif.Gadgets.Poseidon2Plain
import Verif.Props.Shamir

/-!
# Properties C71–C73: Poseidon2

`poseidon2 p x` (`Verif/Spec/Poseidon2.lean`) is the permutation, defined with matrices.  `Params.WF`,
`IsPrecomputed` and `permuteAll` (a client that permutes states one after the other) are there as well.
-/

namespace Verif.Props

open PartyID Verif.Poseidon2 Verif.Shamir

variable {n : Nat} {F R M : Type}

/-! ## C71 -/

section

variable [CommRing F]

/-- C71: the accepted parameters, apart from those for the empty state, describe an instance of Poseidon2,
provided that small states come with the standard diagonal. -/
theorem C71_params {t d rf rp : Nat} {diag : List F} {ext : List (List F)} {int : List F} {p : Params F}
    (h : Params.new t d rf rp diag ext int = some p) (ht : 0 < t)
    (h2 : t = 2 → diag = [1, 2]) (h3 : t = 3 → diag = [1, 1, 2]) :
    p.WF ∧ p.t = t ∧ p.d = d ∧ p.roundsFBeginning = p.roundsFEnd ∧ p.roundsFBeginning + p.roundsFEnd = rf ∧
      p.roundsP = rp ∧ p.diagM1 = diag ∧ p.rcExternal = ext ∧ p.rcInternal = int := by
  unfold Params.new at h
  split at h
  · rename_i hc
    obtain ⟨h1, -, hf, he, hi, hd, hr⟩ := hc
    cases h
    refine ⟨⟨?_, hd, by simp only; omega, hr, hi, fun h => ?_, fun h => ?_⟩, rfl, rfl, rfl, by simp only; omega,
      rfl, rfl, rfl, rfl⟩
    · simp only
      have : t = 2 ∨ t = 3 ∨ t = 4 ∨ t = 8 ∨ t = 12 ∨ t = 16 ∨ t = 20 ∨ t = 24 := by omega
      simpa using this
    · simpa using h2 h
    · simpa using h3 h
  · cases h

/-- C71: other parameters are rejected. -/
theorem C71_params_reject {t d rf rp : Nat} {diag : List F} {ext : List (List F)} {int : List F}
    (h : t ∉ [0, 2, 3, 4, 8, 12, 16, 20, 24] ∨ d % 2 = 0 ∨ rf % 2 = 1 ∨ ext.length ≠ rf ∨ int.length ≠ rp) :
    Params.new t d rf rp diag ext int = none := by
  unfold Params.new
  rw [if_neg]
  rintro ⟨h1, h2, h3, h4, h5, -⟩
  have : t ∈ [0, 2, 3, 4, 8, 12, 16, 20, 24] := by
    simp only [List.mem_cons, List.not_mem_nil, or_false]
    omega
  rcases h with h | h | h | h | h
  · exact h this
  all_goals omega

/-- C71: in the clear, the permutation of the paper is computed. -/
theorem C71_plain {p : Params F} (hp : p.WF) {x : List F} (hx : x.length = p.t) :
    permutation p x = some (poseidon2 p x) := permutation_eq hp hx

/-- C71, where the parameters do not hold what they promise: states of two or three elements are permuted with the
standard diagonal, whatever the diagonal of the parameters is. -/
theorem C71_diagonal_ignored {p : Params F} (hp : p.WF) (ht : p.t = 2 ∨ p.t = 3) (diag : List F) {x : List F}
    (hx : x.length = p.t) : permutation { p with diagM1 := diag } x = some (poseidon2 p x) :=
  (permutation_diagonal hp ht diag hx).trans (permutation_eq hp hx)

/-- C71, the empty state: the parameters are accepted, the permutation panics. -/
theorem C71_empty_state (d : Nat) (hd : d % 2 = 1) :
    ∃ p : Params F, Params.new 0 d 0 0 [] [] [] = some p ∧ permutation p [] = none :=
  ⟨⟨0, d, 0, 0, 0, [], [], []⟩, by simp [Params.new, hd], rfl⟩

end

/-- Parameters over the field with seven elements: four external rounds and three internal ones. -/
def _root_.Verif.Demo.poseidon : Params Demo.F7 :=
  ⟨2, 5, 2, 2, 3, [1, 2], [[1, 2], [3, 4], [5, 6], [0, 1]], [4, 2, 6]⟩
def _root_.Verif.Demo.poseidon4 : Params Demo.F7 :=
  ⟨4, 5, 1, 1, 1, [3, 1, 5, 6], [[1, 2, 3, 4], [6, 0, 2, 5]], [4]⟩

example : Params.new 2 5 4 3 [1, 2] [[1, 2], [3, 4], [5, 6], [0, 1]] [4, 2, 6] = some Demo.poseidon := rfl
theorem _root_.Verif.Demo.poseidon_wf : Demo.poseidon.WF :=
  (C71_params (t := 2) (d := 5) (rf := 4) (rp := 3) (diag := [1, 2]) (ext := [[1, 2], [3, 4], [5, 6], [0, 1]])
    (int := [4, 2, 6]) rfl (by decide) (fun _ => rfl) (by decide)).1
theorem _root_.Verif.Demo.poseidon4_wf : Demo.poseidon4.WF :=
  (C71_params (t := 4) (d := 5) (rf := 2) (rp := 1) (diag := [3, 1, 5, 6])
    (ext := [[1, 2, 3, 4], [6, 0, 2, 5]]) (int := [4]) rfl (by decide) (by decide) (by decide)).1
example : Params.new 5 5 0 0 [(1 : Demo.F7), 1, 1, 1, 1] [] [] = none := C71_params_reject (Or.inl (by decide))
example : permutation Demo.poseidon [3, 5] = some (poseidon2 Demo.poseidon [3, 5]) :=
  C71_plain Demo.poseidon_wf rfl
example : permutation Demo.poseidon4 [3, 5, 0, 1] = some (poseidon2 Demo.poseidon4 [3, 5, 0, 1]) :=
  C71_plain Demo.poseidon4_wf rfl
example : permutation { Demo.poseidon with diagM1 := [6, 6] } [3, 5] = some (poseidon2 Demo.poseidon [3, 5]) :=
  C71_diagonal_ignored Demo.poseidon_wf (Or.inl rfl) _ rfl
-- The diagonal that is ignored would make a difference.
example : poseidon2 { Demo.poseidon with diagM1 := [6, 6] } [3, 5] ≠ poseidon2 Demo.poseidon [3, 5] := by
  decide

/-! ## C72 -/

section

variable {ty : A2BType} {st : PartyID → Rep3State R}

section

variable [Field F] [Sample R F] [Codec M (List F)] {p : Params F}

/-- C72: the precomputation gives sharings of random values and of their powers, as many as `num`
permutations need, none of them used. -/
theorem C72_precompute (hd : p.d = 5) (num : Nat) (hst : Corr ty st) :
    Ensures (M := M) (fun _ => precomputeRep3 p num) st (fun pre st' =>
      (∃ rs : List F, rs.length = p.numSbox * num ∧ IsPrecomputed (IsShare (G := F)) pre rs 0) ∧ Corr ty st') :=
  (spec_precomputeRep3 hd num hst).ensures

/-- C72: the same with additive sharings. -/
theorem C72_precompute_additive (hd : p.d = 5) (num : Nat) (hst : Corr ty st) :
    Ensures (M := M) (fun _ => precomputeRep3Additive p num) st (fun pre st' =>
      (∃ rs : List F, rs.length = p.numSbox * num ∧ IsPrecomputed (IsAdditive (G := F)) pre rs 0) ∧
        Corr ty st') :=
  (spec_precomputeRep3Additive hd num hst).ensures

/-- C72: a pool for `num` permutations serves that many, one after the other. -/
theorem C72_pool (hp : p.WF) (hd : p.d = 5) {num : Nat} {xs : PartyID → List (List (Share F))}
    {vs : List (List F)} (hx : Cols IsShares xs vs) (hv : ∀ v ∈ vs, v.length = p.t) (hn : vs.length ≤ num)
    (hst : Corr ty st) :
    Ensures (M := M) (fun i => do
        let pre ← precomputeRep3 p num
        let r ← permuteAll (permutationPrecomp p) (xs i) pre
        pure r.1) st (fun ys st' => Cols IsShares ys (vs.map (poseidon2 p)) ∧ Corr ty st') := by
  refine (Spec.bind (spec_precomputeRep3 hd num hst) ?_).ensures
  rintro pre st1 ⟨⟨rs, hrs, hpre⟩, hst1⟩
  refine Spec.bind (spec_permuteAll (Rel := IsShares) (Pre := fun off pre => IsPrecomputed IsShare pre rs off)
    (I := Corr ty) (N := rs.length) (c := p.numSbox) (g := poseidon2 p)
    (fun off x v pre st ho hm hx hpre hst => ?_) (by rw [hrs, Nat.zero_add]; exact Nat.mul_le_mul_left _ hn)
    hx hpre hst1) ?_
  · have := spec_permutationPrecomp (M := M) hp hd hx (hv v hm) hpre ho hst
    rwa [permutationRounds_poseidon2 hp (hv v hm)] at this
  · rintro r st2 ⟨h1, -, h2⟩
    exact Spec.pure ⟨h1, h2⟩

/-- C72: the pool never serves more than that: the parties panic before a precomputed value is used twice. -/
theorem C72_pool_exhausted (hp : p.WF) (hd : p.d = 5) (h0 : 0 < p.numSbox) {num : Nat}
    {xs : PartyID → List (List (Share F))} {vs : List (List F)} (hx : Cols IsShares xs vs)
    (hv : ∀ v ∈ vs, v.length = p.t) (hn : num < vs.length) (hst : Corr ty st) :
    EnsuresE (M := M) (fun i => do
        let pre ← precomputeRep3 p num
        let r ← permuteAll (permutationPrecomp p) (xs i) pre
        pure r.1) st (fun r => ∃ msg, ∀ i, r i = .error (.panic msg)) := by
  refine (SpecE.bind (spec_precomputeRep3 hd num hst) ?_).ensures
  rintro pre st1 ⟨⟨rs, hrs, hpre⟩, hst1⟩
  refine SpecE.bindPanic (specE_permuteAll (Rel := IsShares)
    (Pre := fun off pre => IsPrecomputed IsShare pre rs off)
    (I := Corr ty) (N := rs.length) (c := p.numSbox) (g := poseidon2 p)
    (fun off x v pre st ho hm hx hpre hst => ?_)
    (fun off x v pre st hle ho hm hx hpre hst => specE_permutationPrecomp hp hd hx (hv v hm) hpre hle ho hst)
    (Nat.zero_le _) (by rw [hrs, Nat.zero_add]; exact Nat.mul_lt_mul_of_pos_left hn h0)
    hx hpre hst1)
  have := spec_permutationPrecomp (M := M) hp hd hx (hv v hm) hpre ho hst
  rwa [permutationRounds_poseidon2 hp (hv v hm)] at this

end

variable [CommRing F] [Sample R F] [Codec M (List F)] {p : Params F} {rs : List F} {used : Nat}

/-- C72: with precomputed powers, one state.  Exactly the next `numSbox` entries of the pool are used. -/
theorem C72_precomp (hp : p.WF) (hd : p.d = 5) {x : PartyID → List (Share F)} {v : List F}
    (hx : IsShares x v) (hv : v.length = p.t) {pre : PartyID → Precomputations (Share F)}
    (hpre : IsPrecomputed (IsShare (G := F)) pre rs used) (hoff : used + p.numSbox ≤ rs.length)
    (hst : Corr ty st) :
    Ensures (M := M) (fun i => permutationPrecomp p (x i) (pre i)) st (fun s st' =>
      IsShares (fun i => (s i).1) (poseidon2 p v) ∧
      IsPrecomputed (IsShare (G := F)) (fun i => (s i).2) rs (used + p.numSbox) ∧ Corr ty st') := by
  have := (spec_permutationPrecomp (M := M) hp hd hx hv hpre hoff hst).ensures
  rwa [permutationRounds_poseidon2 hp hv] at this

/-- C72: with precomputed powers, several states in one vector. -/
theorem C72_packed (hp : p.WF) (hd : p.d = 5) {x : PartyID → List (Share F)} {v : List (List F)}
    (hx : IsShares x v.flatten) (hv : ∀ u ∈ v, u.length = p.t) {pre : PartyID → Precomputations (Share F)}
    (hpre : IsPrecomputed (IsShare (G := F)) pre rs used) (hoff : used + p.numSbox * v.length ≤ rs.length)
    (hst : Corr ty st) :
    Ensures (M := M) (fun i => permutationPacked p (x i) (pre i)) st (fun s st' =>
      IsShares (fun i => (s i).1) (v.map (poseidon2 p)).flatten ∧
      IsPrecomputed (IsShare (G := F)) (fun i => (s i).2) rs (used + p.numSbox * v.length) ∧ Corr ty st') := by
  have := (spec_permutationPacked (M := M) hp hd hx hv hpre hoff hst).ensures
  rwa [List.map_congr_left fun u hu => permutationRounds_poseidon2 hp (hv u hu)] at this

/-- C72: with precomputed powers, on additive shares inside. -/
theorem C72_additive (hp : p.WF) (hd : p.d = 5) {x : PartyID → List (Share F)} {v : List F}
    (hx : IsShares x v) (hv : v.length = p.t) {pre : PartyID → Precomputations F}
    (hpre : IsPrecomputed (IsAdditive (G := F)) pre rs used) (hoff : used + p.numSbox ≤ rs.length)
    (hst : Corr ty st) :
    Ensures (M := M) (fun i => permutationAdditive p (x i) (pre i)) st (fun s st' =>
      IsShares (fun i => (s i).1) (poseidon2 p v) ∧
      IsPrecomputed (IsAdditive (G := F)) (fun i => (s i).2) rs (used + p.numSbox) ∧ Corr ty st') := by
  have := (spec_permutationAdditive (M := M) hp hd hx hv hpre hoff hst).ensures
  rwa [permutationRounds_poseidon2 hp hv] at this

/-- C72: without precomputation. -/
theorem C72_direct (hp : p.WF) (hd : p.d = 5) (hb : 0 < p.roundsFBeginning) {x : PartyID → List (Share F)}
    {v : List F} (hx : IsShares x v) (hv : v.length = p.t) (hst : Corr ty st) :
    Ensures (M := M) (fun i => permutationRep3 p (x i)) st (fun s st' =>
      IsShares s (poseidon2 p v) ∧ Corr ty st') := by
  have := (spec_permutationRep3 (M := M) hp hd hb hx hv hst).ensures
  rwa [permutationRounds_poseidon2 hp hv] at this

/-- C72: if the pool does not suffice for all states of a vector, all parties panic. -/
theorem C72_packed_exhausted (hp : p.WF) (hd : p.d = 5) {x : PartyID → List (Share F)} {v : List (List F)}
    (hx : IsShares x v.flatten) (hv : ∀ u ∈ v, u.length = p.t) {pre : PartyID → Precomputations (Share F)}
    (hpre : IsPrecomputed (IsShare (G := F)) pre rs used) (hle : used ≤ rs.length)
    (hoff : rs.length < used + p.numSbox * v.length) (hst : Corr ty st) :
    EnsuresE (M := M) (fun i => permutationPacked p (x i) (pre i)) st
      (fun r => ∃ msg, ∀ i, r i = .error (.panic msg)) :=
  (specE_permutationPacked hp hd hx hv hpre hle hoff hst).ensures

/-- C72: if the pool does not suffice, all parties panic (additive shares). -/
theorem C72_additive_exhausted (hp : p.WF) (hd : p.d = 5) {x : PartyID → List (Share F)} {v : List F}
    (hx : IsShares x v) (hv : v.length = p.t) {pre : PartyID → Precomputations F}
    (hpre : IsPrecomputed (IsAdditive (G := F)) pre rs used) (hle : used ≤ rs.length)
    (hoff : rs.length < used + p.numSbox) (hst : Corr ty st) :
    EnsuresE (M := M) (fun i => permutationAdditive p (x i) (pre i)) st
      (fun r => ∃ msg, ∀ i, r i = .error (.panic msg)) :=
  (specE_permutationAdditive hp hd hx hv hpre hle hoff hst).ensures

end

/-- Precomputed powers of `3`: two used entries, and as many as one permutation of the demonstration needs. -/
def _root_.Verif.Demo.pool3 (i : PartyID) : Precomputations (Share Demo.F7) :=
  ⟨List.replicate 13 (Demo.three7 i), List.replicate 13 (Rep3.promoteToTrivialShare i (2 : Demo.F7)),
   List.replicate 13 (Rep3.promoteToTrivialShare i (6 : Demo.F7)),
   List.replicate 13 (Rep3.promoteToTrivialShare i (4 : Demo.F7)), List.replicate 13 (Demo.five7 i), 2⟩

theorem _root_.Verif.Demo.isPrecomputed_pool3 :
    IsPrecomputed (IsShare (G := Demo.F7)) Demo.pool3 (List.replicate 13 3) 2 where
  r := Cols.replicate 13 Demo.isShare_three7
  r2 := Cols.replicate 13 (IsShare.promote 2)
  r3 := Cols.replicate 13 (IsShare.promote 6)
  r4 := Cols.replicate 13 (IsShare.promote 4)
  r5 := Cols.replicate 13 Demo.isShare_five7
  offset _ := rfl

/-- The same, as additive sharings. -/
def _root_.Verif.Demo.poolA (i : PartyID) : Precomputations Demo.F7 :=
  ⟨(Demo.pool3 i).r.map Share.a, (Demo.pool3 i).r2.map Share.a, (Demo.pool3 i).r3.map Share.a,
   (Demo.pool3 i).r4.map Share.a, (Demo.pool3 i).r5.map Share.a, 2⟩

theorem _root_.Verif.Demo.isPrecomputed_poolA :
    IsPrecomputed (IsAdditive (G := Demo.F7)) Demo.poolA (List.replicate 13 3) 2 :=
  Demo.isPrecomputed_pool3.additive

theorem _root_.Verif.Demo.states_35 :
    Cols IsShares (fun i => [[Demo.three7 i, Demo.five7 i], [Demo.five7 i, Demo.one7 i]])
      [[(3 : Demo.F7), 5], [5, 1]] :=
  Cols.cons Demo.isShares_35 (Cols.cons Demo.isShares_51 Cols.nil)

theorem _root_.Verif.Demo.states_35_length : ∀ v ∈ [[(3 : Demo.F7), 5], [5, 1]], v.length = Demo.poseidon.t := by
  decide

example : Ensures (M := Demo.Msg) (fun _ => precomputeRep3 Demo.poseidon 2) Demo.states (fun pre st' =>
    (∃ rs : List Demo.F7, rs.length = 22 ∧ IsPrecomputed IsShare pre rs 0) ∧ Corr .direct st') :=
  C72_precompute rfl 2 Demo.corr_states
example : Ensures (M := Demo.Msg) (fun _ => precomputeRep3Additive Demo.poseidon 2) Demo.states (fun pre st' =>
    (∃ rs : List Demo.F7, rs.length = 22 ∧ IsPrecomputed IsAdditive pre rs 0) ∧ Corr .direct st') :=
  C72_precompute_additive rfl 2 Demo.corr_states
example : Ensures (M := Demo.Msg) (fun i => do
      let pre ← precomputeRep3 Demo.poseidon 2
      let r ← permuteAll (permutationPrecomp Demo.poseidon)
        [[Demo.three7 i, Demo.five7 i], [Demo.five7 i, Demo.one7 i]] pre
      pure r.1) Demo.states (fun ys st' =>
    Cols IsShares ys [poseidon2 Demo.poseidon [3, 5], poseidon2 Demo.poseidon [5, 1]] ∧ Corr .direct st') :=
  C72_pool Demo.poseidon_wf rfl Demo.states_35 Demo.states_35_length (by decide) Demo.corr_states
example : EnsuresE (M := Demo.Msg) (fun i => do
      let pre ← precomputeRep3 Demo.poseidon 1
      let r ← permuteAll (permutationPrecomp Demo.poseidon)
        [[Demo.three7 i, Demo.five7 i], [Demo.five7 i, Demo.one7 i]] pre
      pure r.1) Demo.states (fun r => ∃ msg, ∀ i, r i = .error (.panic msg)) :=
  C72_pool_exhausted Demo.poseidon_wf rfl (by decide) Demo.states_35 Demo.states_35_length (by decide)
    Demo.corr_states
example : Ensures (M := Demo.Msg) (fun i => permutationPrecomp Demo.poseidon [Demo.three7 i, Demo.five7 i]
      (Demo.pool3 i)) Demo.states (fun s st' =>
    IsShares (fun i => (s i).1) (poseidon2 Demo.poseidon [3, 5]) ∧
    IsPrecomputed IsShare (fun i => (s i).2) (List.replicate 13 3) 13 ∧ Corr .direct st') :=
  C72_precomp Demo.poseidon_wf rfl Demo.isShares_35 rfl Demo.isPrecomputed_pool3 (by decide) Demo.corr_states
example : Ensures (M := Demo.Msg) (fun i => permutationPacked Demo.poseidon [Demo.three7 i, Demo.five7 i]
      (Demo.pool3 i)) Demo.states (fun s st' =>
    IsShares (fun i => (s i).1) ([[3, 5]].map (poseidon2 Demo.poseidon)).flatten ∧
    IsPrecomputed IsShare (fun i => (s i).2) (List.replicate 13 3) 13 ∧ Corr .direct st') :=
  C72_packed Demo.poseidon_wf rfl Demo.isShares_35 (v := [[3, 5]]) (by decide) Demo.isPrecomputed_pool3
    (by decide) Demo.corr_states
example : Ensures (M := Demo.Msg) (fun i => permutationAdditive Demo.poseidon [Demo.three7 i, Demo.five7 i]
      (Demo.poolA i)) Demo.states (fun s st' =>
    IsShares (fun i => (s i).1) (poseidon2 Demo.poseidon [3, 5]) ∧
    IsPrecomputed IsAdditive (fun i => (s i).2) (List.replicate 13 3) 13 ∧ Corr .direct st') :=
  C72_additive Demo.poseidon_wf rfl Demo.isShares_35 rfl Demo.isPrecomputed_poolA (by decide) Demo.corr_states
example : Ensures (M := Demo.Msg) (fun i => permutationRep3 Demo.poseidon [Demo.three7 i, Demo.five7 i])
      Demo.states (fun s st' => IsShares s (poseidon2 Demo.poseidon [3, 5]) ∧ Corr .direct st') :=
  C72_direct Demo.poseidon_wf rfl (by decide) Demo.isShares_35 rfl Demo.corr_states
example : EnsuresE (M := Demo.Msg) (fun i => permutationPacked Demo.poseidon
      [Demo.three7 i, Demo.five7 i, Demo.five7 i, Demo.one7 i] (Demo.pool3 i)) Demo.states
    (fun r => ∃ msg, ∀ i, r i = .error (.panic msg)) :=
  C72_packed_exhausted Demo.poseidon_wf rfl (v := [[3, 5], [5, 1]])
    (Cols.append (P := IsShare) Demo.isShares_35 Demo.isShares_51) (by decide)
    Demo.isPrecomputed_pool3 (by decide) (by decide) Demo.corr_states
example : EnsuresE (M := Demo.Msg) (fun i => permutationAdditive Demo.poseidon
      [Demo.three7 i, Demo.five7 i] { Demo.poolA i with offset := 3 }) Demo.states
    (fun r => ∃ msg, ∀ i, r i = .error (.panic msg)) :=
  C72_additive_exhausted Demo.poseidon_wf rfl Demo.isShares_35 rfl (rs := List.replicate 13 3) (used := 3)
    { Demo.isPrecomputed_poolA with offset := fun _ => rfl } (by decide) (by decide) Demo.corr_states

/-! ## C73 -/

section

variable [Field F] [Sample R F] [Codec M F] [Codec M (List F)] {t : Nat} {st : Fin n → ShamirState n R F}
  {p : Params F} {rs : List F} {used : Nat}

/-- C73: the precomputation gives sharings of random values and of their powers, as many as `num`
permutations need, none of them used. -/
theorem C73_precompute (hd : p.d = 5) (num : Nat) (hst : ShCorr t st) :
    Ensures (M := M) (fun _ => precomputeShamir p num) st (fun pre st' =>
      (∃ rs : List F, rs.length = p.numSbox * num ∧ IsPrecomputed (IsShamir (V := F) F t) pre rs 0) ∧
        ShCorr t st') :=
  (spec_precomputeShamir hd num hst).ensures

/-- C73: with precomputed powers, one state.  Exactly the next `numSbox` entries of the pool are used. -/
theorem C73_precomp (hp : p.WF) (hd : p.d = 5) {x : Fin n → List F} {v : List F}
    (hx : IsShamirs F t x v) (hv : v.length = p.t) {pre : Fin n → Precomputations F}
    (hpre : IsPrecomputed (IsShamir (V := F) F t) pre rs used) (hoff : used + p.numSbox ≤ rs.length)
    (hst : ShCorr t st) :
    Ensures (M := M) (fun i => permutationPrecompShamir p (x i) (pre i)) st (fun s st' =>
      IsShamirs F t (fun i => (s i).1) (poseidon2 p v) ∧
      IsPrecomputed (IsShamir (V := F) F t) (fun i => (s i).2) rs (used + p.numSbox) ∧ ShCorr t st') := by
  have := (spec_permutationPrecompShamir (M := M) hp hd hx hv hpre hoff hst).ensures
  rwa [permutationRounds_poseidon2 hp hv] at this

/-- C73: with precomputed powers, several states in one vector. -/
theorem C73_packed (hp : p.WF) (hd : p.d = 5) {x : Fin n → List F} {v : List (List F)}
    (hx : IsShamirs F t x v.flatten) (hv : ∀ u ∈ v, u.length = p.t) {pre : Fin n → Precomputations F}
    (hpre : IsPrecomputed (IsShamir (V := F) F t) pre rs used)
    (hoff : used + p.numSbox * v.length ≤ rs.length) (hst : ShCorr t st) :
    Ensures (M := M) (fun i => permutationPackedShamir p (x i) (pre i)) st (fun s st' =>
      IsShamirs F t (fun i => (s i).1) (v.map (poseidon2 p)).flatten ∧
      IsPrecomputed (IsShamir (V := F) F t) (fun i => (s i).2) rs (used + p.numSbox * v.length) ∧
        ShCorr t st') := by
  have := (spec_permutationPackedShamir (M := M) hp hd hx hv hpre hoff hst).ensures
  rwa [List.map_congr_left fun u hu => permutationRounds_poseidon2 hp (hv u hu)] at this

/-- C73: without precomputation. -/
theorem C73_direct (hp : p.WF) (hd : p.d = 5) {x : Fin n → List F} {v : List F}
    (hx : IsShamirs F t x v) (hv : v.length = p.t) (hst : ShCorr t st) :
    Ensures (M := M) (fun i => permutationShamir p (x i)) st (fun s st' =>
      IsShamirs F t s (poseidon2 p v) ∧ ShCorr t st') := by
  have := (spec_permutationShamir (M := M) hp hd hx hv hst).ensures
  rwa [permutationRounds_poseidon2 hp hv] at this

/-- C73: a pool for `num` permutations serves that many, one after the other. -/
theorem C73_pool (hp : p.WF) (hd : p.d = 5) {num : Nat} {xs : Fin n → List (List F)}
    {vs : List (List F)} (hx : Cols (IsShamirs F t) xs vs) (hv : ∀ v ∈ vs, v.length = p.t)
    (hn : vs.length ≤ num) (hst : ShCorr t st) :
    Ensures (M := M) (fun i => do
        let pre ← precomputeShamir p num
        let r ← permuteAll (permutationPrecompShamir p) (xs i) pre
        pure r.1) st (fun ys st' => Cols (IsShamirs F t) ys (vs.map (poseidon2 p)) ∧ ShCorr t st') := by
  refine (Spec.bind (spec_precomputeShamir hd num hst) ?_).ensures
  rintro pre st1 ⟨⟨rs, hrs, hpre⟩, hst1⟩
  refine Spec.bind (spec_permuteAll (Rel := IsShamirs F t)
    (Pre := fun off pre => IsPrecomputed (IsShamir (V := F) F t) pre rs off)
    (I := ShCorr t) (N := rs.length) (c := p.numSbox) (g := poseidon2 p)
    (fun off x v pre st ho hm hx hpre hst => ?_) (by rw [hrs, Nat.zero_add]; exact Nat.mul_le_mul_left _ hn)
    hx hpre hst1) ?_
  · have := spec_permutationPrecompShamir (M := M) hp hd hx (hv v hm) hpre ho hst
    rwa [permutationRounds_poseidon2 hp (hv v hm)] at this
  · rintro r st2 ⟨h1, -, h2⟩
    exact Spec.pure ⟨h1, h2⟩

/-- C73: the pool never serves more than that: the parties panic before a precomputed value is used twice. -/
theorem C73_pool_exhausted (hp : p.WF) (hd : p.d = 5) (h0 : 0 < p.numSbox) {num : Nat}
    {xs : Fin n → List (List F)} {vs : List (List F)} (hx : Cols (IsShamirs F t) xs vs)
    (hv : ∀ v ∈ vs, v.length = p.t) (hn : num < vs.length) (hst : ShCorr t st) :
    EnsuresE (M := M) (fun i => do
        let pre ← precomputeShamir p num
        let r ← permuteAll (permutationPrecompShamir p) (xs i) pre
        pure r.1) st (fun r => ∃ msg, ∀ i, r i = .error (.panic msg)) := by
  refine (SpecE.bind (spec_precomputeShamir hd num hst) ?_).ensures
  rintro pre st1 ⟨⟨rs, hrs, hpre⟩, hst1⟩
  refine SpecE.bindPanic (specE_permuteAll (Rel := IsShamirs F t)
    (Pre := fun off pre => IsPrecomputed (IsShamir (V := F) F t) pre rs off)
    (I := ShCorr t) (N := rs.length) (c := p.numSbox) (g := poseidon2 p)
    (fun off x v pre st ho hm hx hpre hst => ?_)
    (fun off x v pre st hle ho hm hx hpre hst =>
      specE_permutationPrecompShamir hp hd hx (hv v hm) hpre hle ho hst)
    (Nat.zero_le _) (by rw [hrs, Nat.zero_add]; exact Nat.mul_lt_mul_of_pos_left hn h0)
    hx hpre hst1)
  have := spec_permutationPrecompShamir (M := M) hp hd hx (hv v hm) hpre ho hst
  rwa [permutationRounds_poseidon2 hp (hv v hm)] at this

/-- C73: if the pool does not suffice for all states of a vector, all parties panic. -/
theorem C73_packed_exhausted (hp : p.WF) (hd : p.d = 5) {x : Fin n → List F} {v : List (List F)}
    (hx : IsShamirs F t x v.flatten) (hv : ∀ u ∈ v, u.length = p.t) {pre : Fin n → Precomputations F}
    (hpre : IsPrecomputed (IsShamir (V := F) F t) pre rs used) (hle : used ≤ rs.length)
    (hoff : rs.length < used + p.numSbox * v.length) (hst : ShCorr t st) :
    EnsuresE (M := M) (fun i => permutationPackedShamir p (x i) (pre i)) st
      (fun r => ∃ msg, ∀ i, r i = .error (.panic msg)) :=
  (specE_permutationPackedShamir hp hd hx hv hpre hle hoff hst).ensures

end

/-- Precomputed powers of `3` for three parties with threshold one. -/
def _root_.Verif.Demo.poolS (i : Fin 3) : Precomputations Demo.F7 :=
  ⟨List.replicate 13 (Demo.sh3 i), List.replicate 13 2, List.replicate 13 6, List.replicate 13 (Demo.sh4 i),
   List.replicate 13 5, 2⟩

theorem _root_.Verif.Demo.isPrecomputed_poolS :
    IsPrecomputed (IsShamir (V := Demo.F7) Demo.F7 1) Demo.poolS (List.replicate 13 3) 2 where
  r := Cols.replicate 13 Demo.isShamir_sh3
  r2 := Cols.replicate 13 (IsShamir.const 1 2)
  r3 := Cols.replicate 13 (IsShamir.const 1 6)
  r4 := Cols.replicate 13 Demo.isShamir_sh4
  r5 := Cols.replicate 13 (IsShamir.const 1 5)
  offset _ := rfl

theorem _root_.Verif.Demo.states_34 :
    Cols (IsShamirs Demo.F7 1) (fun i => [[Demo.sh3 i, Demo.sh4 i], [Demo.sh3 i, Demo.sh4 i]])
      [[(3 : Demo.F7), 4], [3, 4]] :=
  Cols.cons Demo.isShamirs_34 (Cols.cons Demo.isShamirs_34 Cols.nil)

example : ∃ st : Fin 3 → ShamirState 3 Nat Demo.F7, ShCorr 1 st ∧
    Ensures (M := Demo.Msg) (fun _ => precomputeShamir Demo.poseidon 2) st (fun pre st' =>
      (∃ rs : List Demo.F7, rs.length = 22 ∧ IsPrecomputed (IsShamir (V := Demo.F7) Demo.F7 1) pre rs 0) ∧
        ShCorr 1 st') ∧
    Ensures (M := Demo.Msg) (fun i => permutationPrecompShamir Demo.poseidon [Demo.sh3 i, Demo.sh4 i]
        (Demo.poolS i)) st (fun s st' =>
      IsShamirs Demo.F7 1 (fun i => (s i).1) (poseidon2 Demo.poseidon [3, 4]) ∧
      IsPrecomputed (IsShamir (V := Demo.F7) Demo.F7 1) (fun i => (s i).2) (List.replicate 13 3) 13 ∧
      ShCorr 1 st') ∧
    Ensures (M := Demo.Msg) (fun i => permutationPackedShamir Demo.poseidon [Demo.sh3 i, Demo.sh4 i]
        (Demo.poolS i)) st (fun s st' =>
      IsShamirs Demo.F7 1 (fun i => (s i).1) ([[3, 4]].map (poseidon2 Demo.poseidon)).flatten ∧
      IsPrecomputed (IsShamir (V := Demo.F7) Demo.F7 1) (fun i => (s i).2) (List.replicate 13 3) 13 ∧
      ShCorr 1 st') ∧
    Ensures (M := Demo.Msg) (fun i => permutationShamir Demo.poseidon [Demo.sh3 i, Demo.sh4 i]) st
      (fun s st' => IsShamirs Demo.F7 1 s (poseidon2 Demo.poseidon [3, 4]) ∧ ShCorr 1 st') ∧
    EnsuresE (M := Demo.Msg) (fun i => permutationPackedShamir Demo.poseidon
        [Demo.sh3 i, Demo.sh4 i, Demo.sh3 i, Demo.sh4 i] (Demo.poolS i)) st
      (fun r => ∃ msg, ∀ i, r i = .error (.panic msg)) :=
  Demo.shamir_states.imp fun _ h => ⟨h, C73_precompute rfl 2 h,
    C73_precomp Demo.poseidon_wf rfl Demo.isShamirs_34 rfl Demo.isPrecomputed_poolS (by decide) h,
    C73_packed Demo.poseidon_wf rfl Demo.isShamirs_34 (v := [[3, 4]]) (by decide) Demo.isPrecomputed_poolS
      (by decide) h,
    C73_direct Demo.poseidon_wf rfl Demo.isShamirs_34 rfl h,
    C73_packed_exhausted Demo.poseidon_wf rfl (v := [[3, 4], [3, 4]])
      (Cols.append (P := IsShamir (V := Demo.F7) Demo.F7 1) Demo.isShamirs_34 Demo.isShamirs_34) (by decide)
      Demo.isPrecomputed_poolS (by decide) (by decide) h⟩

example : ∃ st : Fin 3 → ShamirState 3 Nat Demo.F7, ShCorr 1 st ∧
    Ensures (M := Demo.Msg) (fun i => do
        let pre ← precomputeShamir Demo.poseidon 2
        let r ← permuteAll (permutationPrecompShamir Demo.poseidon)
          [[Demo.sh3 i, Demo.sh4 i], [Demo.sh3 i, Demo.sh4 i]] pre
        pure r.1) st (fun ys st' => Cols (IsShamirs Demo.F7 1) ys
          [poseidon2 Demo.poseidon [3, 4], poseidon2 Demo.poseidon [3, 4]] ∧ ShCorr 1 st') ∧
    EnsuresE (M := Demo.Msg) (fun i => do
        let pre ← precomputeShamir Demo.poseidon 1
        let r ← permuteAll (permutationPrecompShamir Demo.poseidon)
          [[Demo.sh3 i, Demo.sh4 i], [Demo.sh3 i, Demo.sh4 i]] pre
        pure r.1) st (fun r => ∃ msg, ∀ i, r i = .error (.panic msg)) :=
  Demo.shamir_states.imp fun _ h => ⟨h,
    C73_pool Demo.poseidon_wf rfl Demo.states_34 (by decide) (by decide) h,
    C73_pool_exhausted Demo.poseidon_wf rfl (by decide) Demo.states_34 (by decide) (by decide) h⟩

end Verif.Props
