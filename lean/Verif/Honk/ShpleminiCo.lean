import Verif.Honk.ShpleminiVerify
import Verif.Honk.ShpleminiDrivers
import Verif.Honk.CoSumcheckDrivers
import Verif.Plonk.Rep3Sim

/-!
# Lemmas: the collaborative opening proof follows the plain one
-/

namespace Verif.Honk

open Plonk (Linear LRel evalPublic zipInto_cols mapHead_cols)

section

variable {ι F A : Type} [Field F] [DecidableEq F] [Zero A] [Add A] [Sub A] [Neg A] [SMul F A]
variable {P : (ι → A) → F → Prop} {addPub : ι → A → F → A} {promote : ι → F → A} (hl : Linear P addPub promote)

/-! ## Lists -/

theorem foldl_cols {α α' β β' : Type} {Q : (ι → α) → α' → Prop} {R : (ι → β) → β' → Prop} {f : β → α → β} {f' : β' → α' → β'}
    (hstep : ∀ x v a w, R x v → Q a w → R (fun i => f (x i) (a i)) (f' v w)) {s : ι → List α} {vs : List α'} (hs : Cols Q s vs)
    {x : ι → β} {v : β'} (hx : R x v) : R (fun i => (s i).foldl f (x i)) (vs.foldl f' v) := by
  obtain ⟨l, rfl, h⟩ := hs
  induction h generalizing x v with
  | nil => exact hx
  | cons h _ ih => exact ih (hstep _ _ _ _ hx h)

theorem cols_tail {α α' : Type} {Q : (ι → α) → α' → Prop} {s : ι → List α} {vs : List α'} (hs : Cols Q s vs) :
    Cols Q (fun i => (s i).tail) vs.tail := by simpa using hs.drop 1

theorem cols_dropLast {α α' : Type} {Q : (ι → α) → α' → Prop} {s : ι → List α} {vs : List α'} (hs : Cols Q s vs) :
    Cols Q (fun i => (s i).dropLast) vs.dropLast := by
  simpa [List.dropLast_eq_take, hs.length] using hs.take (vs.length - 1)

theorem cols_and {α α' : Type} {Q : (ι → α) → α' → Prop} {p : α' → Prop} {s : ι → List α} {vs : List α'} (hs : Cols Q s vs)
    (hp : ∀ v ∈ vs, p v) : Cols (fun x v => Q x v ∧ p v) s vs := by
  obtain ⟨l, rfl, h⟩ := hs
  refine ⟨l, rfl, ?_⟩
  induction h with
  | nil => exact .nil
  | cons h _ ih => exact .cons ⟨h, hp _ (by simp)⟩ (ih fun v hv => hp v (by simp [hv]))

include hl

/-! ## Polynomials -/

omit [DecidableEq F] in
theorem addScaled_rel (k : F) {s t : ι → List A} {v w : List F} (hs : Cols P s v) (ht : Cols P t w) :
    Cols P (fun i => addScaled k (s i) (t i)) (addScaled k v w) :=
  zipInto_cols hs ht fun _ _ _ _ h h' => hl.add _ _ _ _ h (hl.smul k _ _ h')

omit [DecidableEq F] in
theorem divideLoop_rel (k : F) {s : ι → List A} {v : List F} (hs : Cols P s v) {t : ι → A} {w : F} (ht : P t w) :
    Cols P (fun i => divideLoop k (t i) (s i)) (divideLoop k w v) := by
  obtain ⟨l, rfl, h⟩ := hs
  induction h generalizing t w with
  | nil => exact Cols.nil
  | cons h _ ih =>
    have := hl.smul k _ _ (hl.sub _ _ _ _ h ht)
    exact Cols.cons this (ih this)

theorem factorRoots_rel (root : F) {s : ι → List A} {v : List F} (hs : Cols P s v) :
    Cols P (fun i => factorRoots root (s i)) (factorRoots root v) := by
  unfold factorRoots
  split_ifs
  · exact cols_tail hs
  · exact cols_dropLast (divideLoop_rel hl _ hs hl.zero)

omit [DecidableEq F] in
theorem subHead_rel {s : ι → List A} {v : List F} (hs : Cols P s v) {x : ι → A} {w : F} (hx : P x w) :
    Cols P (fun i => subHead (s i) (x i)) (subHead v w) :=
  mapHead_cols (f := fun i y => y - x i) hs fun _ _ h => hl.sub _ _ _ _ h hx

/-- The states of the loops. -/
def BatchRel (P : (ι → A) → F → Prop) (x : ι → List A × F) (v : List F × F) : Prop := Cols P (fun i => (x i).1) v.1 ∧ ∀ i, (x i).2 = v.2

omit [DecidableEq F] in
theorem batchPolys_rel (ρ : F) {ps : ι → List (List A)} {vs : List (List F)} (hps : Cols (Cols P) ps vs) {x : ι → List A × F}
    {v : List F × F} (hx : BatchRel P x v) : BatchRel P (fun i => batchPolys ρ (x i) (ps i)) (batchPolys ρ v vs) := by
  refine foldl_cols (R := BatchRel P) (fun x v a w hx ha => ⟨?_, fun i => by simp only [hx.2 i]⟩) hps hx
  simp only [hx.2]
  exact addScaled_rel hl _ hx.1 ha

omit [DecidableEq F] in
theorem coFold_rel' {s : ι → List A} {vs : List F} (hs : Cols P s vs) (u : F) (n : Nat) :
    Cols P (fun i => coFold u (s i) n) (coFold u vs n) := by
  have := coFold_rel hl hs u n
  have e : fold u vs n = coFold u vs n := List.map_congr_left fun k _ => by rw [smul_eq_mul, mul_comm u]
  rwa [e] at this

omit [DecidableEq F] in
theorem foldPolys_rel (us : List F) (k : Nat) {s : ι → List A} {v : List F} (hs : Cols P s v) :
    Cols (Cols P) (fun i => foldPolys us k (s i)) (foldPolys us k v) := by
  induction us generalizing k s v with
  | nil => cases k <;> exact Cols.nil
  | cons u us ih =>
    cases k with
    | zero => exact Cols.nil
    | succ k => exact Cols.cons (coFold_rel' hl hs u _) (ih k (coFold_rel' hl hs u _))

omit [DecidableEq F] in
theorem tailPolys_rel {x : ι → A} {w : F} (hx : P x w) (t : F) (us : List F) :
    Cols (Cols P) (fun i => tailPolys (x i) t us) (tailPolys w t us) := by
  induction us generalizing t with
  | nil => exact Cols.nil
  | cons u us ih => exact Cols.cons (Cols.cons (hl.smul _ _ _ hx) Cols.nil) (ih _)

omit [DecidableEq F] in
theorem computeFoldPolynomials_rel (logN : Nat) (us : List F) {s : ι → List A} {v : List F} (hs : Cols P s v) :
    LRel (Cols (Cols P)) (fun i => computeFoldPolynomials logN us (s i)) (computeFoldPolynomials logN us v) := by
  intro polys hp
  unfold computeFoldPolynomials at hp ⊢
  split_ifs at hp with h0
  have hf := foldPolys_rel hl us (logN - 1) hs
  simp only [List.getLast?_eq_getElem?] at hp ⊢
  cases e : (foldPolys us (logN - 1) v)[(foldPolys us (logN - 1) v).length - 1]? with
  | none => rw [e] at hp; cases hp
  | some last =>
    obtain ⟨x, hx, hxl⟩ := hf.get e
    cases e' : us[logN - 1]? with
    | none => rw [e, e'] at hp; cases hp
    | some u =>
      rw [e, e'] at hp
      obtain rfl := Except.ok.inj hp
      simp only [hf.length, hx, if_neg h0]
      refine ⟨_, fun i => rfl, ?_⟩
      have g0 := Groth16.Cols.getD hxl hl.zero 0
      have g1 := Groth16.Cols.getD hxl hl.zero 1
      have hfin := hl.add _ _ _ _ g0 (hl.smul u _ _ (hl.sub _ _ _ _ g1 g0))
      exact (hf.append (Cols.cons (Cols.cons hfin Cols.nil) Cols.nil)).append (tailPolys_rel hl hfin 1 _)

/-! ## Claims -/

/-- The claims of the parties belong to a claim in the clear. -/
structure ClaimRel (P : (ι → A) → F → Prop) (x : ι → OpenClaim F A) (c : OpenClaim F F) : Prop where
  poly : Cols P (fun i => (x i).poly) c.poly
  point : ∀ i, (x i).point = c.point
  value : P (fun i => (x i).value) c.value
  fold : ∀ i, (x i).fold = c.fold
  nonempty : c.poly ≠ []

/-- The openings. -/
structure OpeningRel (P : (ι → A) → F → Prop) (x : ι → List A × F × A) (o : List F × F × F) : Prop where
  poly : Cols P (fun i => (x i).1) o.1
  point : ∀ i, (x i).2.1 = o.2.1
  value : P (fun i => (x i).2.2) o.2.2

omit hl in
omit [DecidableEq F] [Zero A] [Add A] [Sub A] [Neg A] [SMul F A] in
theorem openClaims_rel {ev : ι → List A → F → A}
    (hev : ∀ {s : ι → List A} {v : List F} (x : F), Cols P s v → v ≠ [] → P (fun i => ev i (s i) x) (evalPublic v x)) (D : Nat)
    {pos neg : ι → List A} {pv nv : List F} (hpos : Cols P pos pv) (hneg : Cols P neg nv) (hpv : pv ≠ []) (hnv : nv ≠ [])
    {polys : ι → List (List A)} {vs : List (List F)} (hps : Cols (Cols P) polys vs) (hne : ∀ p ∈ vs, p ≠ []) (r : F) :
    Cols (ClaimRel P) (fun i => openClaims (ev i) D (pos i) (neg i) (polys i) r) (openClaims evalPublic D pv nv vs r) := by
  refine Cols.cons ⟨hpos, fun _ => rfl, hev _ hpos hpv, fun _ => rfl, hpv⟩ (Cols.cons ⟨hneg, fun _ => rfl, hev _ hneg hnv, fun _ => rfl, hnv⟩ ?_)
  generalize (squares r D).tail = xs
  obtain ⟨l, rfl, h⟩ := hps
  induction h generalizing xs with
  | nil => cases xs <;> exact Cols.nil
  | cons h _ ih =>
    cases xs with
    | nil => exact Cols.nil
    | cons x xs =>
      exact Cols.cons ⟨h, fun _ => rfl, hev _ h (hne _ (by simp)), fun _ => rfl, hne _ (by simp)⟩ (ih (fun p hp => hne p (by simp [hp])) xs)

omit hl in
omit [DecidableEq F] [Zero A] [Add A] [Sub A] [Neg A] [SMul F A] in
theorem posValues_rel {ev : ι → List A → F → A}
    (hev : ∀ {s : ι → List A} {v : List F} (x : F), Cols P s v → v ≠ [] → P (fun i => ev i (s i) x) (evalPublic v x))
    {cs : ι → List (OpenClaim F A)} {vs : List (OpenClaim F F)} (h : Cols (ClaimRel P) cs vs) :
    Cols P (fun i => posValues (ev i) (cs i)) (posValues evalPublic vs) := by
  obtain ⟨l, rfl, h⟩ := h
  induction h with
  | nil => exact Cols.nil
  | @cons x c l vs h _ ih =>
    cases e : c.fold with
    | false =>
      have e' : ∀ i, (x i).fold = false := fun i => (h.fold i).trans e
      simpa [posValues, e, e'] using ih
    | true =>
      have e' : ∀ i, (x i).fold = true := fun i => (h.fold i).trans e
      have hc := hev (-c.point) h.poly h.nonempty
      have hc' : P (fun i => ev i (x i).poly (-(x i).point)) (evalPublic c.poly (-c.point)) := by simpa only [h.point] using hc
      simpa [posValues, e, e'] using Cols.cons hc' ih

omit [DecidableEq F] in
theorem openings_rel {cs : ι → List (OpenClaim F A)} {vs : List (OpenClaim F F)} (h : Cols (ClaimRel P) cs vs) {pos : ι → List A}
    {pv : List F} (hp : Cols P pos pv) : Cols (OpeningRel P) (fun i => openings (cs i) (pos i)) (openings vs pv) := by
  obtain ⟨l, rfl, h⟩ := h
  induction h generalizing pos pv with
  | nil => exact Cols.nil
  | @cons x c l vs h _ ih =>
    have self : OpeningRel P (fun i => ((x i).poly, (x i).point, (x i).value)) (c.poly, c.point, c.value) := ⟨h.poly, h.point, h.value⟩
    cases e : c.fold with
    | false =>
      have e' : ∀ i, (x i).fold = false := fun i => (h.fold i).trans e
      simpa [openings, e, e'] using Cols.cons self (ih hp)
    | true =>
      have e' : ∀ i, (x i).fold = true := fun i => (h.fold i).trans e
      have hd : P (fun i => (pos i).headD 0) (pv.headD 0) := by
        obtain ⟨l', rfl, hp⟩ := hp
        cases hp with
        | nil => exact hl.zero
        | cons hp _ => exact hp
      have other : OpeningRel P (fun i => ((x i).poly, -(x i).point, (pos i).headD 0)) (c.poly, -c.point, pv.headD 0) :=
        ⟨h.poly, fun i => by rw [h.point i], hd⟩
      simpa [openings, e, e'] using Cols.cons other (Cols.cons self (ih (cols_tail hp)))

/-! ## Quotients -/

theorem batchedQuotient_rel (ν : F) {os : ι → List (List A × F × A)} {vs : List (List F × F × F)} (h : Cols (OpeningRel P) os vs) :
    Cols P (fun i => batchedQuotient (fun n => n) ν (os i)) (batchedQuotient (fun n => n) ν vs) := by
  have hm : ∀ i, (os i).foldl (fun m o => max m o.1.length) 0 = vs.foldl (fun m o => max m o.1.length) 0 :=
    foldl_cols (R := fun (x : ι → Nat) v => ∀ i, x i = v) (f := fun m o => max m o.1.length) (f' := fun m o => max m o.1.length)
      (fun _ _ _ _ hx ha i => congrArg₂ max (hx i) (ha.poly.length i)) h fun _ => rfl
  simp only [batchedQuotient, hm]
  refine (foldl_cols (R := BatchRel P) (fun x v a w hx ha => ⟨?_, fun i => by simp only [hx.2 i]⟩) h ⟨Cols.replicate _ hl.zero, fun _ => rfl⟩).1
  simp only [hx.2, ha.point]
  exact addScaled_rel hl _ hx.1 (factorRoots_rel hl _ (subHead_rel hl ha.poly ha.value))

omit [DecidableEq F] in
theorem partialQuotient_rel (ν z : F) {q : ι → List A} {Q : List F} (hq : Cols P q Q) {os : ι → List (List A × F × A)}
    {vs : List (List F × F × F)} (h : Cols (OpeningRel P) os vs) :
    Cols P (fun i => partialQuotient ν z (q i) (os i)) (partialQuotient ν z Q vs) := by
  simp only [partialQuotient]
  refine (foldl_cols (R := BatchRel P) (fun x v a w hx ha => ⟨?_, fun i => by simp only [hx.2 i]⟩) h ⟨hq, fun _ => rfl⟩).1
  simp only [hx.2, ha.point]
  exact addScaled_rel hl _ hx.1 (subHead_rel hl ha.poly ha.value)

end

/-! ## The plain prover -/

section

variable {F G : Type} [Field F] [DecidableEq F] [AddCommGroup G] [Module F G]

theorem plainPcs_commit (crs : List G) {p : List F} (hp : p.length ≤ crs.length) :
    (plainPcs (F := F) (G := G)).commit crs p = .ok (Rep3.Point.msm crs p) := if_neg (by omega)

theorem plainPcs_commits (crs : List G) {ps : List (List F)} (hp : ∀ p ∈ ps, p.length ≤ crs.length) :
    ps.mapM ((plainPcs (F := F) (G := G)).commit crs) = .ok (ps.map (Rep3.Point.msm crs)) := by
  induction ps with
  | nil => rfl
  | cons p ps ih =>
    rw [List.mapM_cons, plainPcs_commit crs (hp p (by simp)), ih fun q hq => hp q (by simp [hq])]
    rfl

omit [DecidableEq F] in
theorem foldPolynomials_sizes {logN : Nat} {us : List F} {a : List F} {ps : List (List F)} (h : computeFoldPolynomials logN us a = .ok ps) :
    ∀ p ∈ ps, p ≠ [] ∧ p.length ≤ 2 ^ logN := by
  have one : ∀ x : F, [x] ≠ [] ∧ [x].length ≤ 2 ^ logN := fun x => ⟨by simp, by simpa using Nat.one_le_two_pow⟩
  have tails : ∀ (us : List F) (c t : F), ∀ p ∈ tailPolys c t us, p ≠ [] ∧ p.length ≤ 2 ^ logN := fun us => by
    induction us with
    | nil => simp [tailPolys]
    | cons u us ih =>
      intro c t p hp
      rcases List.mem_cons.mp hp with rfl | hp
      · exact one _
      · exact ih _ _ p hp
  have folds : ∀ (us : List F) (k : Nat) (a : List F), ∀ p ∈ foldPolys us k a, p ≠ [] ∧ p.length ≤ 2 ^ k := fun us => by
    induction us with
    | nil => intro k; cases k <;> simp [foldPolys]
    | cons u us ih =>
      intro k a p hp
      cases k with
      | zero => simp [foldPolys] at hp
      | succ k =>
        rcases List.mem_cons.mp hp with rfl | hp
        · have h := coFold_length u a (2 ^ (k + 1))
          refine ⟨fun e => ?_, h.le⟩
          rw [e] at h
          exact absurd h (Nat.two_pow_pos (k + 1)).ne
        · have := ih k _ p hp
          exact ⟨this.1, this.2.trans (Nat.pow_le_pow_right (by omega) (by omega))⟩
  unfold computeFoldPolynomials at h
  split_ifs at h with h0
  dsimp only at h
  split at h
  · cases h
  · split at h
    · cases h
    · obtain rfl := Except.ok.inj h
      intro p hp
      rcases List.mem_append.mp hp with hp | hp
      · rcases List.mem_append.mp hp with hp | hp
        · have := folds _ _ _ p hp
          exact ⟨this.1, this.2.trans (Nat.pow_le_pow_right (by omega) (by omega))⟩
        · rw [List.mem_singleton.mp hp]
          exact one _
      · exact tails _ _ _ p hp

end

/-! ## The run -/

section

variable {ι S M F A G B : Type} [DecidableEq ι] [Field F] [DecidableEq F] [AddCommGroup G] [Module F G]
  [Zero A] [Add A] [Sub A] [Neg A] [SMul F A]

/-- What the drivers guarantee; `P` is for shares of field elements and `PB` for shares of points. -/
structure PcsSim (I : (ι → S) → Prop) (d : ι → PcsDriver (MPC ι S M Err) F A G B) (P : (ι → A) → F → Prop) (PB : (ι → B) → G → Prop)
    (addPub : ι → A → F → A) : Prop where
  linear : Linear P addPub fun i => (d i).promote
  evalPoly : ∀ {s : ι → List A} {v : List F} (x : F), Cols P s v → v ≠ [] → P (fun i => (d i).evalPoly (s i) x) (evalPublic v x)
  roundUp : ∀ i, (d i).roundUp = fun n => n
  commit : ∀ {s : ι → List A} {v : List F} (crs : List G), Cols P s v → v.length ≤ crs.length →
    IS I (fun i => (d i).commit crs (s i)) fun r => PB r (Rep3.Point.msm crs v)
  openPoints : ∀ {s : ι → List B} {v : List G}, Cols PB s v → IS I (fun i => (d i).openPoints (s i)) fun r => r = fun _ => v
  openPoint : ∀ {s : ι → B} {v : G}, PB s v → IS I (fun i => (d i).openPoint (s i)) fun r => r = fun _ => v
  openMany : ∀ {s : ι → List A} {v : List F}, Cols P s v → IS I (fun i => (d i).openMany (s i)) fun r => r = fun _ => v

variable {I : (ι → S) → Prop} {d : ι → PcsDriver (MPC ι S M Err) F A G B} {P : (ι → A) → F → Prop} {PB : (ι → B) → G → Prop}
  {addPub : ι → A → F → A}

/-- If the plain prover makes a proof, all parties make it. -/
theorem PcsSim.prove (h : PcsSim (M := M) I d P PB addPub) {ch : PcsChallenges F G} {crs : List G} {logN : Nat} {us : List F}
    (h2 : 2 ≤ logN) (hD : logN ≤ us.length) (hlen : 2 ^ logN ≤ crs.length) {pub : List (List F)} {wit shift : ι → List (List A)}
    {witv shiftv : List (List F)} (hw : Cols (Cols P) wit witv) (hs : Cols (Cols P) shift shiftv) {proof : PcsProof F G}
    (hp : shpleminiProve plainPcs ch crs logN us pub witv shiftv = .ok proof) :
    IS I (fun i => shpleminiProve (d i) ch crs logN us pub (wit i) (shift i)) fun r => r = fun _ => proof := by
  have hl := h.linear
  obtain ⟨k, rfl⟩ : ∃ k, logN = k + 1 := ⟨logN - 1, by omega⟩
  -- the plain run
  obtain ⟨⟨f, g⟩, hb⟩ : ∃ b, computeBatchedPolys (plainPcs (F := F) (G := G)) ch.rho (2 ^ (k + 1)) pub witv shiftv = b := ⟨_, rfl⟩
  have hbl := computeBatched_length (G := G) ch.rho (2 ^ (k + 1)) pub witv shiftv
  rw [hb] at hbl
  obtain ⟨polys, hp1, hp2⟩ := computeFoldPolynomials_ok (a := Plonk.zipInto (· + ·) f g.tail) h2 hD
  have hsz := foldPolynomials_sizes hp1
  have hszt : ∀ p ∈ polys.take (us.length - 1), p.length ≤ crs.length := fun p hp => (hsz p (List.mem_of_mem_take hp)).2.trans hlen
  obtain ⟨folds, hfolds⟩ : ∃ folds, (polys.take (us.length - 1)).map (Rep3.Point.msm crs) = folds := ⟨_, rfl⟩
  have hcommit := plainPcs_commits crs hszt
  rw [hfolds] at hcommit
  obtain ⟨r, hr⟩ : ∃ r, ch.r folds = r := ⟨_, rfl⟩
  have e1 : (plainPcs (F := F) (G := G)).evalPoly = evalPublic := rfl
  have e2 : (plainPcs (F := F) (G := G)).roundUp = nextPowerOfTwo := rfl
  have e3 : ∀ l, (plainPcs (F := F) (G := G)).openPoints l = .ok l := fun _ => rfl
  have e4 : ∀ l, (plainPcs (F := F) (G := G)).openMany l = .ok l := fun _ => rfl
  have e5 : ∀ l, (plainPcs (F := F) (G := G)).openPoint l = .ok l := fun _ => rfl
  by_cases hr0 : r = 0
  · exfalso
    simp only [shpleminiProve, hb, hp1, PcsDriver.lift, pure_bind, hcommit, Plonk.ok_bind, e3, hr, posNeg, if_pos hr0] at hp
    cases hp
  obtain ⟨pos, hpos⟩ : ∃ pos, Plonk.zipInto (· + ·) f (g.map fun x => r⁻¹ • x) = pos := ⟨_, rfl⟩
  obtain ⟨neg, hneg⟩ : ∃ neg, Plonk.zipInto (· - ·) f (g.map fun x => r⁻¹ • x) = neg := ⟨_, rfl⟩
  have hposl : pos.length = 2 ^ (k + 1) := by rw [← hpos, Plonk.zipInto_length]; exact hbl.1
  have hnegl : neg.length = 2 ^ (k + 1) := by rw [← hneg, Plonk.zipInto_length]; exact hbl.1
  obtain ⟨claims, hclaims⟩ : ∃ claims, openClaims evalPublic us.length pos neg polys r = claims := ⟨_, rfl⟩
  obtain ⟨evals, hevals⟩ : ∃ evals, ((claims.drop 1).take us.length).map (·.value) = evals := ⟨_, rfl⟩
  obtain ⟨ν, hν⟩ : ∃ ν, ch.nu folds evals = ν := ⟨_, rfl⟩
  obtain ⟨os, hos⟩ : ∃ os, openings claims (posValues evalPublic claims) = os := ⟨_, rfl⟩
  have hop := openings_eq r pos neg polys _ us.length (by omega) hp2 (by rw [fullFolds_length]; omega)
  rw [hclaims, hos] at hop
  have hsizes := pcsOpenings_sizes (us := us) (r := r) (k := k) (a := Plonk.zipInto (· + ·) f g.tail) hposl hnegl
  rw [show k + 1 - 1 = k from rfl] at hop
  rw [← hop] at hsizes
  obtain ⟨o, os', ho, hol⟩ : ∃ o os', os = o :: os' ∧ o.1.length = 2 ^ (k + 1) := ⟨_, _, hop, hposl⟩
  obtain ⟨Q, hQ⟩ : ∃ Q, batchedQuotient nextPowerOfTwo ν os = Q := ⟨_, rfl⟩
  have hQ' : batchedQuotient (fun n => n) ν os = Q := by
    have hm : os.foldl (fun m (o : List F × F × F) => max m o.1.length) 0 = 2 ^ (k + 1) := by
      rw [ho]
      exact size_eq (fun o : List F × F × F => o.1.length) (2 ^ (k + 1)) o os' hol fun p hp => (hsizes p (by simp [ho, hp])).2
    rw [← hQ, batchedQuotient, batchedQuotient, hm, nextPowerOfTwo_pow]
  obtain ⟨z, hz⟩ : ∃ z, ch.z folds evals (Rep3.Point.msm crs Q) = z := ⟨_, rfl⟩
  have hql := quotients_length (ν := ν) (z := z) hol (os := os') (by rw [← ho]; exact hsizes)
  rw [← ho, hQ] at hql
  have hQl : Q.length ≤ crs.length := by omega
  have hWl : (factorRoots z (partialQuotient ν z Q os)).length ≤ crs.length := hql.2.trans hlen
  simp only [shpleminiProve, hb, hp1, PcsDriver.lift, pure_bind, hcommit, Plonk.ok_bind, e3, hr, posNeg, if_neg hr0, hpos, hneg, e1, e2,
    hclaims, hevals, e4, hos, hν, hQ, plainPcs_commit crs hQl, e5, hz, plainPcs_commit crs hWl] at hp
  obtain rfl := Except.ok.inj hp
  -- the parties
  have hbr : Cols P (fun i => (computeBatchedPolys (d i) ch.rho (2 ^ (k + 1)) pub (wit i) (shift i)).1) f ∧
      Cols P (fun i => (computeBatchedPolys (d i) ch.rho (2 ^ (k + 1)) pub (wit i) (shift i)).2) g := by
    have hpub : BatchRel P (fun i => ((batchPolys ch.rho (List.replicate (2 ^ (k + 1)) 0, 1) pub).1.map (d i).promote,
        (batchPolys ch.rho (List.replicate (2 ^ (k + 1)) 0, 1) pub).2)) (batchPolys ch.rho (List.replicate (2 ^ (k + 1)) 0, 1) pub) := by
      refine ⟨?_, fun _ => rfl⟩
      have := (Groth16.cols_const (ι := ι) (batchPolys ch.rho (List.replicate (2 ^ (k + 1)) (0 : F), 1) pub).1).map
        (Q := P) (f := fun i => (d i).promote) (g := id) fun x v hx => by subst hx; exact hl.promote v
      simpa using this
    have hf := batchPolys_rel hl ch.rho hw hpub
    have hg := batchPolys_rel hl ch.rho hs (x := fun i => (List.replicate (2 ^ (k + 1)) 0,
      (batchPolys ch.rho ((batchPolys ch.rho (List.replicate (2 ^ (k + 1)) 0, 1) pub).1.map (d i).promote,
        (batchPolys ch.rho (List.replicate (2 ^ (k + 1)) 0, 1) pub).2) (wit i)).2)) (v := (List.replicate (2 ^ (k + 1)) 0, _)) ⟨Cols.replicate _ hl.zero, hf.2⟩
    have hb' := hb
    simp only [computeBatchedPolys, show (plainPcs (F := F) (G := G)).promote = id from rfl, List.map_id, Prod.mk.injEq] at hb'
    rw [← hb'.1, ← hb'.2]
    exact ⟨hf.1, hg.1⟩
  obtain ⟨sf, hsf⟩ : ∃ sf, (fun i => (computeBatchedPolys (d i) ch.rho (2 ^ (k + 1)) pub (wit i) (shift i)).1) = sf := ⟨_, rfl⟩
  obtain ⟨sg, hsg⟩ : ∃ sg, (fun i => (computeBatchedPolys (d i) ch.rho (2 ^ (k + 1)) pub (wit i) (shift i)).2) = sg := ⟨_, rfl⟩
  rw [hsf, hsg] at hbr
  have hsf' := fun i => congrFun hsf i
  have hsg' := fun i => congrFun hsg i
  have ha0 := zipInto_cols (f := fun _ => (· + ·)) (g := (· + ·)) hbr.1 (cols_tail hbr.2) fun _ _ _ _ h h' => hl.add _ _ _ _ h h'
  obtain ⟨sp, hsp, hspr⟩ := computeFoldPolynomials_rel hl (k + 1) us ha0 polys hp1
  have hgr := hbr.2.map (f := fun _ x => r⁻¹ • x) (g := fun x => r⁻¹ • x) (Q := P) fun x v hx => hl.smul _ _ _ hx
  have hposr := zipInto_cols (f := fun _ => (· + ·)) (g := (· + ·)) hbr.1 hgr fun _ _ _ _ h h' => hl.add _ _ _ _ h h'
  have hnegr := zipInto_cols (f := fun _ => (· - ·)) (g := (· - ·)) hbr.1 hgr fun _ _ _ _ h h' => hl.sub _ _ _ _ h h'
  rw [hpos] at hposr
  rw [hneg] at hnegr
  have hne : ∀ l : List F, l.length = 2 ^ (k + 1) → l ≠ [] := fun l hl e => by
    rw [e] at hl
    exact absurd hl (Nat.two_pow_pos (k + 1)).ne
  have hcr := openClaims_rel h.evalPoly us.length hposr hnegr (hne _ hposl) (hne _ hnegl) hspr (fun p hp => (hsz p hp).1) r
  rw [hclaims] at hcr
  have her := ((hcr.drop 1).take us.length).map (f := fun _ (c : OpenClaim F A) => c.value) (g := fun (c : OpenClaim F F) => c.value) (Q := P)
    fun x v hx => hx.value
  rw [hevals] at her
  have hor := openings_rel hl hcr (posValues_rel h.evalPoly hcr)
  rw [hos] at hor
  have hqr := batchedQuotient_rel hl ν hor
  rw [hQ'] at hqr
  have hwr := factorRoots_rel hl z (partialQuotient_rel hl ν z hqr hor)
  simp only [shpleminiProve, hsf', hsg', hsp, PcsDriver.lift, pure_bind]
  have hcs : IS I (fun i => ((sp i).take (us.length - 1)).mapM ((d i).commit crs)) fun r => Cols PB r folds := by
    intro st hst
    rw [← hfolds]
    have hc : Cols (fun s v => Cols P s v ∧ v.length ≤ crs.length) (fun i => (sp i).take (us.length - 1)) (polys.take (us.length - 1)) :=
      cols_and (hspr.take (us.length - 1)) hszt
    exact Spec.mapCols hc (fun x v st hx hst => h.commit crs hx.1 hx.2 st hst) hst
  refine hcs.bind fun cs hcs => (h.openPoints hcs).bind fun fs hfs => ?_
  subst hfs
  simp only [hr, posNeg, if_neg hr0, pure_bind]
  refine (h.openMany her).bind fun es hes => ?_
  subst hes
  simp only [hν, h.roundUp]
  refine (h.commit crs hqr hQl).bind fun c hc => (h.openPoint hc).bind fun q hq => ?_
  subst hq
  simp only [hz]
  refine (h.commit crs hwr hWl).bind fun c hc => (h.openPoint hc).bind fun w hw => ?_
  subst hw
  exact IS.pure rfl

end

/-! ## The drivers -/

section

variable {F G : Type} [Field F] [DecidableEq F] [AddCommGroup G] [Module F G]

theorem pcsSim_rep3 {R M : Type} [Sample R F] [Codec M (List F)] [Codec M (List G)] [Codec M (List (List G))] {ty : A2BType}
    {ev : PartyID → List (Share F) → F → Share F}
    (hev : ∀ i l x, l ≠ [] → ∃ threads, Verif.Poly.EvalPoly Verif.Poly.rep3Ops threads l x (ev i l x)) :
    PcsSim (M := M) (Corr (R := R) ty) (fun i => rep3Pcs (G := G) i (ev i)) IsShare IsShare (fun i x k => Rep3.addPublic x k i) where
  linear := Plonk.linear_rep3
  evalPoly := by
    intro s v x h hv
    rw [Plonk.evalPublic_eq_polyValue]
    have : ∀ i, ∃ threads, Verif.Poly.EvalPoly Verif.Poly.rep3Ops threads (s i) x (ev i (s i) x) := fun i => hev i _ _ fun e => by
      have := Cols.length h i
      rw [e] at this
      exact hv (List.length_eq_zero_iff.mp this.symm)
    choose threads hth using this
    exact Verif.Poly.evalPoly_rep3 h hth
  roundUp _ := rfl
  commit := by
    intro s v crs h hv
    have e : ∀ i, ¬ crs.length < (s i).length := fun i => by rw [h.length i]; omega
    simp only [rep3Pcs, if_neg (e _)]
    refine IS.pure ?_
    have := Rep3.Point.msm_share (crs.take v.length) h
    rw [← msm_take] at this
    simpa only [h.length] using this
  openPoints h st hst := (Rep3.Point.spec_openPointMany h).mono fun r s h => ⟨h.1, h.2 ▸ hst⟩
  openPoint h st hst := (Rep3.Point.spec_openPoint h).mono fun r s h => ⟨h.1, h.2 ▸ hst⟩
  openMany h st hst := (Rep3.spec_openVec h).mono fun r s h => ⟨h.1, h.2 ▸ hst⟩

theorem pcsSim_shamir {n t : Nat} {R M : Type} [Sample R F] [Codec M (List F)] [Codec M G] [Codec M (List G)] {ev : Fin n → List F → F → F}
    (hev : ∀ i l x, l ≠ [] → ∃ threads, Verif.Poly.EvalPoly Verif.Poly.shamirOps threads l x (ev i l x)) :
    PcsSim (M := M) (Shamir.ShCorr (n := n) (R := R) (F := F) t) (fun i => shamirPcs (G := G) (ev i)) (IsShamir F t) (IsShamir F t)
      (fun _ x k => Shamir.addPublic x k) where
  linear := Plonk.linear_shamir
  evalPoly := by
    intro s v x h hv
    rw [Plonk.evalPublic_eq_polyValue]
    have : ∀ i, ∃ threads, Verif.Poly.EvalPoly Verif.Poly.shamirOps threads (s i) x (ev i (s i) x) := fun i => hev i _ _ fun e => by
      have := Cols.length h i
      rw [e] at this
      exact hv (List.length_eq_zero_iff.mp this.symm)
    choose threads hth using this
    exact Verif.Poly.evalPoly_shamir h hth
  roundUp _ := rfl
  commit := by
    intro s v crs h hv
    have e : ∀ i, ¬ crs.length < (s i).length := fun i => by rw [h.length i]; omega
    simp only [shamirPcs, if_neg (e _)]
    refine IS.pure ?_
    have := Shamir.msm_isShamir (crs.take v.length) h
    rw [show Shamir.msmPublicPoints (crs.take v.length) v = Rep3.Point.msm (crs.take v.length) v from rfl, ← msm_take] at this
    simpa only [h.length] using this
  openPoints h st hst := (Shamir.spec_openVec hst h).mono fun r s h => ⟨h.1, h.2 ▸ hst⟩
  openPoint h st hst := (Shamir.spec_openShare hst h).mono fun r s h => ⟨h.1, h.2 ▸ hst⟩
  openMany h st hst := (Shamir.spec_openVec hst h).mono fun r s h => ⟨h.1, h.2 ▸ hst⟩

end

end Verif.Honk
