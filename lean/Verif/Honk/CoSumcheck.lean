import Verif.Honk.CoRelations

/-!
# The sumcheck of the collaborative UltraHonk prover without zero knowledge

Models `/repo/co-noir/co-ultrahonk/src/co_decider/co_sumcheck` (`co_sumcheck_prover.rs`, `co_sumcheck_round.rs`) and
`/repo/co-noir/co-ultrahonk/src/co_decider/univariates.rs`.  As in the model of the plain prover, the transcript is a function from
the univariates sent so far to the challenge; every party keeps the transcript itself.
-/

namespace Verif.Honk

namespace SumDriver

/-- A local computation that may panic. -/
def lift {F A : Type} {c : Type → Type} [Monad c] (d : SumDriver c F A) {α : Type} : Except Err α → c α
  | .ok a => pure a
  | .error e => d.fail e

end SumDriver

section

variable {F A : Type} {c : Type → Type} [Monad c] [Field F] [DecidableEq F] [Zero A] [Add A] [Sub A] [Neg A] [SMul F A]

/-! ## Shared univariates -/

/-- Two values.  `/repo/co-noir/co-ultrahonk/src/co_decider/univariates.rs:110-114` -/
def coExtend2 (p0 p1 : A) : Nat → A
  | 0 => p1
  | k + 1 => coExtend2 p0 p1 k + (p1 - p0)

/-- Three values.  `/repo/co-noir/co-ultrahonk/src/co_decider/univariates.rs:115-136` -/
def coExtend3 (F : Type) [Field F] [SMul F A] (p0 p1 p2 : A) : Nat → A × A
  | 0 =>
    let a := (2 : F)⁻¹ • (p0 + p2) - p1
    let b := p1 - p0 - a
    let a2 := a + a
    let aMul := a2 + a2
    (p2, aMul + a + b)
  | k + 1 =>
    let a := (2 : F)⁻¹ • (p0 + p2) - p1
    let a2 := a + a
    let s := coExtend3 F p0 p1 p2 k
    (s.1 + s.2, s.2 + a2)

/-- The general case.  `/repo/co-noir/co-ultrahonk/src/co_decider/univariates.rs:229-254` -/
def coBarycentric {m : Nat} (poly : Univariate A m) (x : F) : A :=
  Univariate.fullNumerator m x •
    (List.finRange m).foldl (fun (acc : A) (j : Fin m) => acc + (Univariate.lagrangeDenominator m j * (x - ((j : Nat) : F)))⁻¹ • poly j) 0

/-- `SharedUnivariate::extend_from`.  The case of four values is left out: there is no accumulator of this length.
`/repo/co-noir/co-ultrahonk/src/co_decider/univariates.rs:101-256` -/
def coExtendFrom (F : Type) [Field F] [SMul F A] {m : Nat} (n : Nat) (poly : Univariate A m) : Univariate A n := fun i =>
  if h : i.1 < m then poly ⟨i.1, h⟩
  else match m, poly with
    | 2, poly => coExtend2 (poly 0) (poly 1) (i.1 - 1)
    | 3, poly => (coExtend3 F (poly 0) (poly 1) (poly 2) (i.1 - 2)).1
    | _, poly => coBarycentric (F := F) poly (i.1 : F)

/-! ## Accumulation -/

/-- The extended columns of an edge and its scaling factor. -/
structure CoEdge (F A : Type) where
  q : Col → Univariate F 7
  e : Col → Univariate A 7
  s : F

/-- `extend_edges`.  `/repo/co-noir/co-ultrahonk/src/co_decider/co_sumcheck/co_sumcheck_round.rs:54-73` -/
def coExtendEdges (pub : Col → List F) (shr : Col → List A) (i : Nat) (s : F) : Except Err (CoEdge F A) :=
  if Col.all.all (fun c => decide (i + 2 ≤ if c.shared then (shr c).length else (pub c).length)) then
    .ok ⟨fun c => Univariate.extendFrom 7 ![(pub c).getD i 0, (pub c).getD (i + 1) 0],
      fun c => coExtendFrom F 7 ![(shr c).getD i 0, (shr c).getD (i + 1) 0], s⟩
  else .error (.panic "range end index out of range for slice")

/-- `can_skip`: only public columns can be looked at; the permutation and the lookups are never skipped.
`/repo/co-noir/co-ultrahonk/src/co_decider/relations/ultra_arithmetic_relation.rs:247-249` and the like -/
def Rel.coSkip (q : Col → Univariate F 7) : Rel → Bool
  | .arith => (q .qArith).isZero
  | .perm => false
  | .lookup => false
  | .delta => (q .qDeltaRange).isZero
  | .elliptic => (q .qElliptic).isZero
  | .memory => (q .qMemory).isZero
  | .nnf => (q .qNnf).isZero
  | .external => (q .qPoseidon2External).isZero
  | .internal => (q .qPoseidon2Internal).isZero

/-- The seven points of an edge.  `/repo/co-noir/co-ultrahonk/src/co_decider/relations/mod.rs:68-80` -/
def CoEdge.points (x : CoEdge F A) : List (Point F A) :=
  (List.finRange 7).map fun i => ⟨fun c => x.q c i, fun c => x.e c i, x.s⟩

/-- `fold_and_filter`, for one relation: the edges that it does not skip.
`/repo/co-noir/co-ultrahonk/src/types_batch.rs:105-129`, `/repo/co-noir/co-ultrahonk/src/co_decider/relations/mod.rs:68-80` -/
def batch (edges : List (CoEdge F A)) (r : Rel) : List (Point F A) :=
  (edges.filter fun x => !r.coSkip x.q).flatMap CoEdge.points

/-- `fold_accumulator!`.  The values beyond the length of the accumulator are thrown away.
`/repo/co-noir/co-ultrahonk/src/co_decider/relations/mod.rs:45-57` -/
def foldAcc {B : Type} [Add B] {n : Nat} (acc : Univariate B n) (l : List B) : Univariate B n := fun i =>
  l.zipIdx.foldl (fun a x => if x.2 % 7 = i.1 then a + x.1 else a) (acc i)

/-- The accumulators before the reshare: the first is on half shares, and its place in `acc` is not used.
`/repo/co-noir/co-ultrahonk/src/co_decider/relations/mod.rs:112-123` -/
structure HalfAcc (F A : Type) where
  half : Univariate F 6
  acc : (s : Subrel) → Univariate A s.len

/-- `accumulate_one_relation_univariates_batch`.  The arithmetic relation collects its sums first and adds them then.
`/repo/co-noir/co-ultrahonk/src/co_decider/co_sumcheck/co_sumcheck_round.rs:221-244`,
`/repo/co-noir/co-ultrahonk/src/co_decider/relations/ultra_arithmetic_relation.rs:166-186`, `222-241`, `323-349` -/
def accumulateOne (d : SumDriver c F A) (p : Params F) (edges : List (CoEdge F A)) (acc : HalfAcc F A) (r : Rel) : c (HalfAcc F A) := do
  let b := batch edges r
  if b.isEmpty then pure acc
  else
    match r with
    | .arith =>
      let half ← coArith0 d b
      let res ← coRelation d p b .arith
      pure ⟨fun i => acc.half i + foldAcc (fun _ => 0) half i,
        fun s i => if s = .arith1 then acc.acc s i + foldAcc (fun _ => 0) (res.map (· s)) i else acc.acc s i⟩
    | r =>
      let res ← coRelation d p b r
      pure ⟨acc.half, fun s i => if s.rel = r then foldAcc (acc.acc s) (res.map (· s)) i else acc.acc s i⟩

/-- `accumulate_relation_univariates_batch`.
`/repo/co-noir/co-ultrahonk/src/co_decider/co_sumcheck/co_sumcheck_round.rs:140-219` -/
def accumulateBatch (d : SumDriver c F A) (p : Params F) (acc : HalfAcc F A) (edges : List (CoEdge F A)) : c (HalfAcc F A) :=
  [Rel.arith, .perm, .delta, .elliptic, .memory, .nnf, .lookup, .external, .internal].foldlM (accumulateOne d p edges) acc

/-- `reshare`.  `/repo/co-noir/co-ultrahonk/src/co_decider/relations/mod.rs:141-162`,
`/repo/co-noir/co-ultrahonk/src/co_decider/univariates.rs:13-19` -/
def reshareAcc (d : SumDriver c F A) (acc : HalfAcc F A) : c ((s : Subrel) → Univariate A s.len) := do
  let r ← d.reshare (List.ofFn acc.half)
  if r.length = 6 then pure fun s i => if s = .arith0 then r.getD i.1 0 else acc.acc s i
  else d.fail (.panic "called `Result::unwrap()` on an `Err` value")

/-- `batch_over_relations_univariates`, `extend_and_batch_univariates`.
`/repo/co-noir/co-ultrahonk/src/co_decider/co_sumcheck/co_sumcheck_round.rs:88-138`,
`/repo/co-noir/co-ultrahonk/src/co_decider/relations/mod.rs:191-260`, `/repo/co-noir/co-ultrahonk/src/co_decider/univariates.rs:36-73` -/
def coBatchOverRelations (acc : (s : Subrel) → Univariate A s.len) (alphas : List F) (sep : Separator F) : Except Err (Univariate A 8) :=
  if alphas.length = 27 then do
    let β ← sep.currentElement
    let pow : Univariate F 8 := Univariate.extendFrom 8 ![1, β]
    pure fun i => Subrel.all.foldl (fun (result : A) s =>
      let extended := coExtendFrom F 8 (fun j => scaleFactor 1 alphas s • acc s j)
      result + if s.independent then (pow i * sep.partialResult) • extended i else extended i) 0
  else .error (.panic "assertion failed: elements.len() == NUM_SUBRELATIONS - 1")

/-- The batches of at most `MAX_ROUND_SIZE_PER_BATCH` rows, that is half as many edges.
`/repo/co-noir/co-ultrahonk/src/co_decider/co_sumcheck/co_sumcheck_round.rs:39`, `269-274` -/
def edgeBatches (m n : Nat) : List (List Nat) := (List.range ((n + m - 1) / m)).map fun b => ((List.range n).drop (b * m)).take m

/-- One edge.  `/repo/co-noir/co-ultrahonk/src/co_decider/co_sumcheck/co_sumcheck_round.rs:275-281` -/
def coEdge (sep : Separator F) (pub : Col → List F) (shr : Col → List A) (k : Nat) : Except Err (CoEdge F A) := do
  let x ← coExtendEdges pub shr (2 * k) (0 : F)
  let f ← index sep.products (((2 * k) >>> 1) * sep.periodicity)
  pure { x with s := f }

/-- `compute_univariate_inner`.  `/repo/co-noir/co-ultrahonk/src/co_decider/co_sumcheck/co_sumcheck_round.rs:246-301` -/
def coComputeUnivariate (d : SumDriver c F A) (p : Params F) (sep : Separator F) (alphas : List F) (pub : Col → List F)
    (shr : Col → List A) (roundSize : Nat) : c (Univariate A 8) := do
  let acc ← (edgeBatches (2 ^ 19) ((roundSize + 1) / 2)).foldlM (fun acc ks => do
    let edges ← d.lift (ks.mapM (coEdge sep pub shr))
    accumulateBatch d p acc edges) (⟨fun _ => 0, fun _ _ => 0⟩ : HalfAcc F A)
  let acc ← reshareAcc d acc
  d.lift (coBatchOverRelations acc alphas sep)

/-- `compute_virtual_contribution`.  `/repo/co-noir/co-ultrahonk/src/co_decider/co_sumcheck/co_sumcheck_round.rs:469-523` -/
def coVirtualContribution (d : SumDriver c F A) (p : Params F) (sep : Separator F) (alphas : List F) (pub : Col → List F)
    (shr : Col → List A) : c (Univariate A 8) := do
  let x ← d.lift (coExtendEdges pub shr 0 (1 : F))
  let acc ← accumulateBatch d p (⟨fun _ => 0, fun _ _ => 0⟩ : HalfAcc F A) [x]
  let acc ← reshareAcc d acc
  d.lift (coBatchOverRelations acc alphas sep)

/-! ## The rounds -/

/-- One shared column in `partially_evaluate_init`.
`/repo/co-noir/co-ultrahonk/src/co_decider/co_sumcheck/co_sumcheck_prover.rs:53-62` -/
def coFold (u : F) (l : List A) (n : Nat) : List A :=
  (List.range n).map fun k => l.getD (2 * k) 0 + u • (l.getD (2 * k + 1) 0 - l.getD (2 * k) 0)

/-- `partially_evaluate_inplace`.
`/repo/co-noir/co-ultrahonk/src/co_decider/co_sumcheck/co_sumcheck_prover.rs:65-98` -/
def coPartiallyEvaluate (pub : Col → List F) (shr : Col → List A) (u : F) : Except Err ((Col → List F) × (Col → List A)) :=
  if Col.all.all (fun c => decide ((if c.shared then (shr c).length else (pub c).length) % 2 = 0)) then
    .ok (fun c =>
        let l := fold u (pub c) ((pub c).length / 2)
        if l.length < 2 then l ++ [0] else l,
      fun c =>
        let l := coFold u (shr c) ((shr c).length / 2)
        if l.length < 2 then l ++ [0] else l)
  else .error (.panic "index out of bounds")

/-- The state of a party in the loop over the rounds. -/
structure CoState (F A : Type) where
  sent : List (Univariate F 8)
  challenges : List F
  pub : Col → List F
  shr : Col → List A
  sep : Separator F
  roundSize : Nat

/-- The opened univariate.  `/repo/co-noir/co-ultrahonk/src/co_decider/co_sumcheck/co_sumcheck_prover.rs:192` -/
def openUnivariate (d : SumDriver c F A) (g : Univariate A 8) : c (Univariate F 8) := do
  let l ← d.openMany (List.ofFn g)
  pure fun i => l.getD i.1 0

/-- A round after the first.
`/repo/co-noir/co-ultrahonk/src/co_decider/co_sumcheck/co_sumcheck_prover.rs:222-252` -/
def coRealRound (d : SumDriver c F A) (p : Params F) (alphas : List F) (ch : List (Univariate F 8) → F) (st : CoState F A) :
    c (CoState F A) := do
  let g ← coComputeUnivariate d p st.sep alphas st.pub st.shr st.roundSize
  let g ← openUnivariate d g
  let u := ch (st.sent ++ [g])
  let polys ← d.lift (coPartiallyEvaluate st.pub st.shr u)
  let sep ← d.lift (st.sep.partiallyEvaluate u)
  pure ⟨st.sent ++ [g], st.challenges ++ [u], polys.1, polys.2, sep, st.roundSize / 2⟩

/-- A round for a variable beyond the size of the circuit.
`/repo/co-noir/co-ultrahonk/src/co_decider/co_sumcheck/co_sumcheck_prover.rs:260-292` -/
def coVirtualRound (d : SumDriver c F A) (p : Params F) (alphas : List F) (ch : List (Univariate F 8) → F) (st : CoState F A) :
    c (CoState F A) := do
  let g ← coVirtualContribution d p st.sep alphas st.pub st.shr
  let g ← openUnivariate d g
  let u := ch (st.sent ++ [g])
  let pub := fun c => match st.pub c with
    | [] => []
    | x :: xs => x * (1 - u) :: xs
  let shr := fun c => match st.shr c with
    | [] => []
    | x :: xs => (1 - u) • x :: xs
  let sep ← d.lift (st.sep.partiallyEvaluate u)
  pure ⟨st.sent ++ [g], st.challenges ++ [u], pub, shr, sep, st.roundSize⟩

/-- The columns that are opened at the end, in the order of `into_shared_iter`. -/
def Col.sharedCols : List Col := Col.all.filter Col.shared

/-- `extract_claimed_evaluations`.
`/repo/co-noir/co-ultrahonk/src/co_decider/co_sumcheck/co_sumcheck_prover.rs:123-152` -/
def coExtractEvaluations (d : SumDriver c F A) (pub : Col → List F) (shr : Col → List A) : c (Col → F) := do
  let firsts ← d.lift (Col.sharedCols.mapM fun c => index (shr c) 0)
  let pubs ← d.lift (extractPublic pub)
  let l ← d.openMany firsts
  pure fun c => if c.shared then l.getD (Col.sharedCols.idxOf c) 0 else pubs c
where
  /-- The first values of the public columns. -/
  extractPublic (pub : Col → List F) : Except Err (Col → F) :=
    if Col.all.all (fun c => c.shared || decide (0 < (pub c).length)) then .ok fun c => (pub c).getD 0 0
    else .error (.panic "index out of bounds")

/-- `k` rounds of a loop. -/
def coRounds {σ : Type} (step : σ → c σ) : Nat → σ → c σ
  | 0, st => pure st
  | k + 1, st => step st >>= coRounds step k

/-- `sumcheck_prove`, on the public columns `pub` and the shares `shr` of the others.
`/repo/co-noir/co-ultrahonk/src/co_decider/co_sumcheck/co_sumcheck_prover.rs:154-305` -/
def coSumcheckProve (d : SumDriver c F A) (p : Params F) (alphas betas : List F) (ch : List (Univariate F 8) → F) (n virtualLogN : Nat)
    (pub : Col → List F) (shr : Col → List A) : c (SumcheckProof F 8) := do
  let logN := Nat.log2 n
  let sep := Separator.new betas logN
  let g ← coComputeUnivariate d p sep alphas pub shr n
  let g ← openUnivariate d g
  let u := ch [g]
  let sep ← d.lift (sep.partiallyEvaluate u)
  let st ← coRounds (coRealRound d p alphas ch) (logN - 1)
    ⟨[g], [u], fun c => fold u (pub c) (n / 2), fun c => coFold u (shr c) (n / 2), sep, n / 2⟩
  let virtualSep ← d.lift (Separator.constructVirtual betas st.challenges)
  let st ← coRounds (coVirtualRound d p alphas ch) (virtualLogN - logN) { st with sep := virtualSep }
  let evaluations ← coExtractEvaluations d st.pub st.shr
  pure ⟨st.sent, evaluations⟩

end

/-! ## The drivers -/

section Rep3

variable {F R M : Type} [Field F] [Sample R F] [SampleVec R F] [Codec M F] [Codec M (List F)]

/-- The driver for three replicated parties.  `/repo/co-noir/co-noir-common/src/mpc/rep3.rs:29-179` -/
def rep3Sum (id : PartyID) : SumDriver (MPC PartyID (Rep3State R) M Err) F (Share F) where
  addPub x y := Rep3.addPublic x y id
  addPubHalf x y := if id = .ID0 then x + y else x
  toHalf k x := k * x.a
  localMulMany := Rep3.localMulVec
  mulMany := Rep3.mulVec
  reshare := Rep3.reshareVec
  openMany := Rep3.openVec
  fail := MPC.throw

end Rep3

section Shamir

variable {F : Type} [Field F] {n : Nat} {R M : Type} [Sample R F] [Codec M (List F)]

/-- The driver for Shamir.  `/repo/co-noir/co-noir-common/src/mpc/shamir.rs:24-170` -/
def shamirSum : SumDriver (MPC (Fin n) (Shamir.ShamirState n R F) M Err) F F where
  addPub x y := Shamir.addPublic x y
  addPubHalf x y := x + y
  toHalf k x := k * x
  localMulMany x y := match Shamir.localMulVec x y with
    | some l => pure l
    | none => MPC.throw (.panic "itertools: .zip_eq() reached end of one iterator before the other")
  mulMany := Shamir.mulVec
  reshare := Shamir.degreeReduceMany
  openMany := Shamir.openVec
  fail := MPC.throw

end Shamir

end Verif.Honk
