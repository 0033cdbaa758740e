import Verif.Plonk.Rep3Sim

/-!
# Lemmas: the PLONK prover with the Rep3 driver

Everything but the products of round 2 is described by `sim_rep3`.  The products can fail, so their states are followed exactly.
-/

namespace Verif.Plonk

open Rep3 PartyID

/-- If the reference succeeds so do the parties, from the given states, with related results. -/
def RelS {ι S M J α β : Type} [DecidableEq ι] {n : Nat} (bad : Prop) (st : ι → S) (Q : (ι → α) → β → (ι → S) → Prop)
    (q : ι → MPCₙ n ι S M J α) (r : Except Err β) : Prop :=
  ∀ v, r = .ok v → Specₙ bad q st fun a s => Q a v s

section

variable {ι S M J α β α' β' : Type} [DecidableEq ι] {n : Nat} {bad : Prop} {st : ι → S}

theorem RelS.bind {Q : (ι → α) → β → (ι → S) → Prop} {Q' : (ι → α') → β' → (ι → S) → Prop} {q : ι → MPCₙ n ι S M J α}
    {r : Except Err β} {f : ι → α → MPCₙ n ι S M J α'} {g : β → Except Err β'} (h : RelS bad st Q q r)
    (h' : ∀ a v s, r = .ok v → Q a v s → RelS bad s Q' (fun i => f i (a i)) (g v)) :
    RelS bad st Q' (fun i => q i >>= f i) (r >>= g) := by
  intro v hv
  cases r with
  | error e => cases hv
  | ok u => exact Specₙ.bind (h u rfl) fun a s ha => h' a u s rfl ha v hv

end

variable {R M F G H Seed : Type} [Field F] [DecidableEq F] [AddCommGroup G] [Module F G] [Sample R F] [Sample R Seed]
  [Seedable R Seed] {ty : A2BType} {st₁ st : PartyID → Rep3State R} {bad : Prop} {α β : Type}

section

variable {J : Type} {n : Nat}

/-- Code that does not draw, at the position where the state is known. -/
theorem RelS.still {T : Nat} {Q : (PartyID → α) → β → Prop} {q : PartyID → MPCₙ n PartyID (Rep3State R) M J α} {r : Except Err β}
    (h : Rel (fun {α} k p Q => MSpec (α := α) (TInv ty st₁ T) (fun _ => bad) 0 k p Q) 0 Q q r) (hst : Corr ty st₁) :
    RelS bad st₁ (fun a v s => Q a v ∧ s = st₁) q r := fun v hv =>
  (h v hv T st₁ ⟨hst, fun _ => ⟨by omega, fun _ => rfl⟩⟩).mono fun _ _ hs => ⟨hs.1, (hs.2.2 rfl).2 rfl⟩

/-- Any other code. -/
theorem RelS.any {T k : Nat} (hk : k < T) {Q : (PartyID → α) → β → Prop} {q : PartyID → MPCₙ n PartyID (Rep3State R) M J α}
    {r : Except Err β}
    (h : Rel (fun {α} k p Q => MSpec (α := α) (TInv ty st₁ T) (fun _ => bad) 0 k p Q) k Q q r) (hst : Corr ty st) :
    RelS bad st (fun a v s => Q a v ∧ Corr ty s) q r := fun v hv =>
  (h v hv 0 st ⟨hst, fun _ => ⟨by omega, fun _ => by omega⟩⟩).mono fun _ _ hs => ⟨hs.1, hs.2.1⟩

end

variable [Codec M (List F)] [Codec M (List G)] [Codec M (List (List G))]

local notation "D" => fun (ev : PartyID → List (Share F) → F → Share F) (i : PartyID) =>
  rep3 (M := M) (R := R) (F := F) (G := G) Seed i (ev i)

theorem corr_forked (h : Corr ty st) : Corr ty fun i => ((st i).fork Seed).1 := by
  obtain ⟨_, h1, h2⟩ := RngOp.run_corr (Seed := Seed) h .forkChild
  cases h1
  exact h2

theorem corr_kept (h : Corr ty st) : Corr ty fun i => ((st i).fork Seed).2 := by
  obtain ⟨_, h1, h2⟩ := RngOp.run_corr (Seed := Seed) h .forkParent
  cases h1
  exact h2

theorem spec_rep3Fork (k : Nat) : Spec (M := M) (fun _ => rep3Fork (R := R) Seed k) st fun s s' =>
    (s = fun i => ((st i).fork Seed).1) ∧ s' = fun i => ((st i).fork Seed).2 :=
  Spec.modifyGet (f := fun _ s => Rep3State.fork Seed s) ⟨rfl, rfl⟩

/-- The two products that run at the same time. -/
theorem specₙ_products (ev : PartyID → List (Share F) → F → Share F) {n k₁ k₂ : Nat} {a b c a' b' c' : PartyID → List (Share F)}
    {av bv cv av' bv' cv' : List F} (ha : Vec IsShare n a av) (hb : Vec IsShare n b bv) (hc : Vec IsShare n c cv)
    (ha' : Vec IsShare n a' av') (hb' : Vec IsShare n b' bv') (hc' : Vec IsShare n c' cv') (hst : Corr ty st) :
    RelS (DrawsZero F (fun i => ((st i).fork Seed).1) (8 * n + 3) ∨
        DrawsZero F (fun i => ((((st i).fork Seed).2).fork Seed).1) (10 * n + 3)) st
      (fun r v s => (Cols (Vec IsShare n) r v ∧ v.length = 2) ∧ Corr ty s)
      (fun i => (D ev i).join [(k₁, (D ev i).arrayProdMul false (a i) (b i) (c i)), (k₂, (D ev i).arrayProdMul true (a' i) (b' i) (c' i))])
      ((reference (F := F) (G := G)).join [(k₁, (reference (F := F) (G := G)).arrayProdMul false av bv cv),
        (k₂, (reference (F := F) (G := G)).arrayProdMul true av' bv' cv')]) := by
  intro v hv
  have h0 := mapM_forall₂ (fun x : Nat × Except Err (List F) => x.2) _ v hv
  obtain ⟨v1, v', e1, h2, rfl⟩ : ∃ v1 v', (reference (F := F) (G := G)).arrayProdMul false av bv cv = .ok v1 ∧
      List.Forall₂ (fun x y => x.2 = Except.ok y) [(k₂, (reference (F := F) (G := G)).arrayProdMul true av' bv' cv')] v' ∧
      v = v1 :: v' := by
    cases h0 with
    | cons h h' => exact ⟨_, _, h, h', rfl⟩
  obtain ⟨v2, e2, rfl⟩ : ∃ v2, (reference (F := F) (G := G)).arrayProdMul true av' bv' cv' = .ok v2 ∧ v' = [v2] := by
    cases h2 with
    | cons h h' => cases h'; exact ⟨_, h, rfl⟩
  have p1 := specE_arrayProdMul (M := M) (R := R) (G := G) (Seed := Seed) ev false ha hb hc e1 (corr_forked (Seed := Seed) hst)
  have p2 := specE_arrayProdMul (M := M) (R := R) (G := G) (Seed := Seed) ev true ha' hb' hc' e2
    (corr_forked (Seed := Seed) (corr_kept (Seed := Seed) hst))
  have := specₙ_joinWith (n := 7) (fork := rep3Fork (M := M) Seed) (st := st) (bad := DrawsZero F (fun i => ((st i).fork Seed).1) (8 * n + 3) ∨
        DrawsZero F (fun i => ((((st i).fork Seed).2).fork Seed).1) (10 * n + 3))
    [(k₁, (fun i => (D ev i).arrayProdMul false (a i) (b i) (c i)), fun r => Vec IsShare n r v1),
     (k₂, (fun i => (D ev i).arrayProdMul true (a' i) (b' i) (c' i)), fun r => Vec IsShare n r v2)] (by simp)
    (.cons (spec_rep3Fork k₁) (.cons (spec_rep3Fork k₂) .nil))
    (.cons (p1.mono fun _ hr => allOrNone_mono hr .inl fun _ _ h => h)
      (.cons (p2.mono fun _ hr => allOrNone_mono hr .inr fun _ _ h => h) .nil))
  refine this.mono ?_
  rintro r s ⟨⟨l, hl, rfl⟩, rfl⟩
  refine ⟨⟨⟨l, rfl, ?_⟩, rfl⟩, corr_kept (corr_kept hst)⟩
  cases hl with
  | cons h1 h' =>
    cases h' with
    | cons h2 h' => cases h'; exact .cons h1 (.cons h2 .nil)

variable (ev : PartyID → List (Share F) → F → Share F)
  (hev : ∀ i l x, l ≠ [] → ∃ threads, Verif.Poly.EvalPoly Verif.Poly.rep3Ops threads l x (ev i l x))

variable (F Seed) in
/-- A product of round 2 fails if round 2 starts with these states. -/
def ProductsFail (st : PartyID → Rep3State R) (n : Nat) : Prop :=
  DrawsZero F (fun i => ((st i).fork Seed).1) (8 * n + 3) ∨
    DrawsZero F (fun i => ((((st i).fork Seed).2).fork Seed).1) (10 * n + 3)

include hev

theorem rep3_computeZ (key : Zkey F G H) (dom : Domains F) (hd : key.domainSize = dom.size) (β γ : F)
    {ws : PartyID → Wires (Share F)} {wv : Wires F} (hw : WiresRel IsShare ws wv) {b : PartyID → List (Share F)} {bl : List F}
    (hb : Cols IsShare b bl) (hst : Corr ty st) :
    RelS (ProductsFail F Seed st dom.size) st (fun a v s => WireRel IsShare a v ∧ Corr ty s)
      (fun i => computeZ (D ev i) key dom β γ (ws i) (b i)) (computeZ reference key dom β γ wv bl) := by
  have S := sim_rep3 (M := M) (R := R) (F := F) (G := G) (Seed := Seed) (ty := ty) (st₀ := st) (dom.size + 1)
    (ProductsFail F Seed st dom.size) ev hev
  unfold Plonk.computeZ
  refine RelS.bind (RelS.still (S.check _) hst) fun _ _ s _ hs => ?_
  rw [hs.2]; clear hs
  refine RelS.bind (RelS.still (S.check _) hst) fun _ _ _ _ hs => ?_
  rw [hs.2]; clear hs
  refine RelS.bind (RelS.still (S.check _) hst) fun _ _ _ _ hs => ?_
  rw [hs.2]; clear hs
  have hn : ∀ k {s : PartyID → List (Share F)} {v : List F}, Cols IsShare s v →
      Vec IsShare dom.size (fun i => numerators (D ev i).addPub dom β γ k (s i)) (numerators (· + ·) dom β γ k v) :=
    fun k s v h => ⟨S.linear.numerators dom β γ k h, by simp [numerators]⟩
  have hdn : ∀ p {s : PartyID → List (Share F)} {v : List F}, Cols IsShare s v →
      Vec IsShare dom.size (fun i => denominators (D ev i).addPub dom β γ p (s i)) (denominators (· + ·) dom β γ p v) :=
    fun p s v h => ⟨S.linear.denominators dom β γ p h, by simp [denominators]⟩
  refine RelS.bind (specₙ_products ev (hn _ hw.a.buffer) (hn _ hw.b.buffer) (hn _ hw.c.buffer)
    (hdn _ hw.a.buffer) (hdn _ hw.b.buffer) (hdn _ hw.c.buffer) hst) ?_
  rintro r rv s _ ⟨hr, hs⟩
  refine RelS.any (T := dom.size + 1) (k := dom.size) (st₁ := s) (by omega) ?_ hs
  have S := sim_rep3 (M := M) (R := R) (F := F) (G := G) (Seed := Seed) (ty := ty) (st₀ := s) (dom.size + 1)
    (ProductsFail F Seed st dom.size) ev hev
  refine S.bind (S.first' (S.mulVec' (vec_get hr 0 (by simp)) (vec_get hr 1 (by simp)))) fun bz bv _ hz => ?_
  have hi := S.linear.interpolate dom (rotateRight_cols hz.1) ((hb.drop 6).take 3)
  refine S.bind (S.loc (LRel.maxLen hi.poly _)) fun _ _ _ _ => ?_
  exact S.pure hi

theorem rep3_round2 (key : Zkey F G H) (dom : Domains F) (hd : key.domainSize = dom.size) (β γ : F)
    {ws : PartyID → Wires (Share F)} {wv : Wires F} (hw : WiresRel IsShare ws wv) {b : PartyID → List (Share F)} {bl : List F}
    (hb : Cols IsShare b bl) (hl : bl.length = 11) (hst : Corr ty st) :
    RelS (ProductsFail F Seed st dom.size) st
      (fun r v s => (WireRel IsShare (fun i => (r i).1) v.1 ∧ (v.1.eval.length = dom.size * 4 ∧ v.1.poly ≠ []) ∧
        (fun i => (r i).2) = fun _ => v.2) ∧ Corr ty s)
      (fun i => round2 (D ev i) key dom β γ (ws i) (b i)) (round2 reference key dom β γ wv bl) := by
  unfold Plonk.round2
  refine RelS.bind (rep3_computeZ ev hev key dom hd β γ hw hb hst) fun z zv s hzv hz => ?_
  refine RelS.any (T := 1) (k := 0) (st₁ := s) (by omega) ?_ hz.2
  have S := sim_rep3 (M := M) (R := R) (F := F) (G := G) (Seed := Seed) (ty := ty) (st₀ := s) 1
    (ProductsFail F Seed st dom.size) ev hev
  refine S.bind (S.commit _ hz.1.poly) fun _ _ _ hc => ?_
  refine S.bind (S.first' (S.openPoint' hc)) fun _ _ _ ho => ?_
  exact S.pure ⟨hz.1, computeZ_good hl hzv, ho⟩

theorem rep3_proveWith (hash : List (F ⊕ G) → F) (key : Zkey F G H) (dom : Domains F) (hd : key.domainSize = dom.size)
    (hpos : 0 < dom.size) (pub : List F) {wit adds b : PartyID → List (Share F)} {w a bl : List F}
    (hw : Cols IsShare wit w) (ha : Cols IsShare adds a) (hb : Cols IsShare b bl) (hl : bl.length = 11) (hst : Corr ty st) :
    RelS (ProductsFail F Seed st dom.size) st (fun r v s => (r = fun _ => v) ∧ Corr ty s)
      (fun i => proveWith (D ev i) hash key dom pub (wit i) (adds i) (b i))
      (proveWith reference hash key dom pub w a bl) := by
  unfold Plonk.proveWith
  have S := sim_rep3 (M := M) (R := R) (F := F) (G := G) (Seed := Seed) (ty := ty) (st₀ := st) 1
    (ProductsFail F Seed st dom.size) ev hev
  refine RelS.bind (RelS.still (S.round1 key dom pub hw ha hb) hst) fun r1 r1v s hr1 h1 => ?_
  obtain ⟨h1, rfl⟩ := h1
  have hg := wirePolys_good _ _ _ _ _ _ _ hl (wirePolys_round1 hr1)
  have e1 : ∀ i, (r1 i).2 = r1v.2 := congrFun h1.2
  simp only [e1]
  refine RelS.bind (rep3_round2 ev hev key dom hd _ _ h1.1 hb hl hst) fun r2 r2v s' _ h2 => ?_
  obtain ⟨h2, hs'⟩ := h2
  have e2 : ∀ i, (r2 i).2 = r2v.2 := congrFun h2.2.2
  simp only [e2]
  refine RelS.any (T := dom.size * 222 + 5) (k := dom.size * 222 + 4) (st₁ := s') (by omega) ?_ hs'
  clear S
  have S := sim_rep3 (M := M) (R := R) (F := F) (G := G) (Seed := Seed) (ty := ty) (st₀ := s') (dom.size * 222 + 5)
    (ProductsFail F Seed s dom.size) ev hev
  refine S.bind (S.round3 key dom hd hpos _ _ _ h1.1 hg h2.1 h2.2.1.1 hb) fun r3 r3v _ h3 => ?_
  have e3 : ∀ i, (r3 i).2 = r3v.2 := congrFun h3.2.2
  simp only [e3]
  refine S.bind (S.round4 key dom _ h3.1 (by rw [h3.2.1.1]; exact hg.pa) (by rw [h3.2.1.2.1]; exact hg.pb)
    (by rw [h3.2.1.2.2.1]; exact hg.pc) (by rw [h3.2.1.2.2.2]; exact h2.2.1.2)) fun evl evv _ h4 => ?_
  subst h4
  refine S.bind (S.round5 key dom _ _ _ h3.1) fun ww wv _ h5 => ?_
  subst h5
  exact S.pure rfl

end Verif.Plonk
