import Verif.Yao.Blueprint
import Verif.Yao.ArithCircuitLemmas
import Verif.Yao.StreamLemmas

/-!
# Rules for computing on additive sharings with one garbled circuit
-/

namespace Verif.Yao

open PartyID Verif.Rep3
open Verif.Yao.Circ (chunks overChunks overChunksPublic overHalves)

variable {R M : Type} [YaoRng R] [YaoNet M] {ty : A2BType} {st : PartyID → Rep3State R}

section Blueprint

variable {α β : Type} [AddCommGroup α] [AddCommGroup β] [Sample R β] {Wi : WireType α} {Wo : WireType β}

omit [YaoRng R] [YaoNet M] in
theorem spec_composeKeysMany (n : Nat) (hst : Corr ty st) :
    Spec (M := M) (fun i => (List.replicate n ()).mapM fun (_ : Unit) => composeKeys (α := β) i) st (fun r st' =>
      (∃ ks : List (β × β), ks.length = n ∧ r = three (ks.map fun c => (0, ⟨0, -c.2⟩))
        (ks.map fun c => (0, ⟨-c.1, 0⟩)) (ks.map fun c => (c.1 + c.2, ⟨-c.2, -c.1⟩))) ∧ Corr ty st') := by
  induction n generalizing st with
  | zero =>
    refine Spec.pure ⟨⟨[], rfl, ?_⟩, hst⟩
    funext i; cases i <;> rfl
  | succ n ih =>
    simp only [List.replicate_succ, List.mapM_cons]
    refine (spec_composeKeys hst).bind ?_
    rintro z st₁ ⟨⟨c2, c3, rfl⟩, hst₁⟩
    refine (ih hst₁).bind ?_
    rintro z st₂ ⟨⟨ks, hl, rfl⟩, hst₂⟩
    refine Spec.pure ⟨⟨(c2, c3) :: ks, by simp [hl], ?_⟩, hst₂⟩
    funext i; cases i <;> rfl

/-- The shares before the outputs are known. -/
def Partial (r : PartyID → List (Share β)) (ks : List (β × β)) : Prop :=
  r = three (ks.map fun c => ⟨0, -c.2⟩) (ks.map fun c => ⟨-c.1, 0⟩) (ks.map fun c => ⟨-c.2, -c.1⟩)

theorem spec_composeInputs (hW : Wo.Lawful) (n : Nat) {delta : PartyID → Option Label} {d : Label}
    (hd : IsDelta delta d) (hst : Corr ty st) :
    Spec (M := M) (fun i => composeInputs Wo n (delta i)) st (fun r st' =>
      (∃ ks : List (β × β), ks.length = n ∧ Partial (fun i => (r i).1) ks ∧
        IsYShare d (fun i => (r i).2) ((ks.map fun c => c.1 + c.2).flatMap Wo.bits)) ∧ Corr ty st') := by
  have key : Spec (M := M) (fun i => do
      let ks ← (List.replicate n ()).mapM fun (_ : Unit) => composeKeys (α := β) i
      let x23 ← inputId2Many Wo (match i with | ID2 => some (ks.map Prod.fst) | _ => none)
        (match i with | ID2 => delta i | _ => none) n
      pure (ks.map Prod.snd, x23)) st (fun r st' =>
      (∃ ks : List (β × β), ks.length = n ∧ Partial (fun i => (r i).1) ks ∧
        IsYShare d (fun i => (r i).2) ((ks.map fun c => c.1 + c.2).flatMap Wo.bits)) ∧ Corr ty st') := by
    refine (spec_composeKeysMany n hst).bind ?_
    rintro z st' ⟨⟨ks, hl, rfl⟩, hst'⟩
    refine Spec.bind (spec_inputId2Many (M := M) hW (xs := ks.map fun c => c.1 + c.2) (d := d) ?_ ?_ ?_ hst') ?_
    · simp [Function.comp_def]
    · simp [hl]
    · exact hd.party2
    rintro y st'' ⟨hy, hst''⟩
    refine Spec.pure ⟨⟨ks, hl, ?_, hy⟩, hst''⟩
    unfold Partial
    funext i; cases i <;> simp
  refine cast ?_ key
  unfold Spec
  congr 1
  funext i
  cases i <;> simp [composeInputs, stateId, hst.id]

omit [YaoRng R] [YaoNet M] [Sample R β] [AddCommGroup β] in
theorem chunks_flatMap {γ : Type} {n : Nat} (hn : 0 < n) {bits : γ → List Bool} (hl : ∀ v, (bits v).length = n)
    (vs : List γ) : chunks n (vs.flatMap bits) = vs.map bits := by
  induction vs with
  | nil => simp [chunks_nil]
  | cons v vs ih =>
    rw [List.flatMap_cons, chunks_eq hn (by rw [List.length_append, hl]; omega), List.take_left' (hl v),
      List.drop_left' (hl v), ih, List.map_cons]

omit [YaoRng R] [YaoNet M] [Sample R β] in
theorem composeOutputs_eq {ofBits : List Bool → Except Err β} (hof : ∀ v, ofBits (Wo.bits v) = .ok v)
    (set : Share β → β → Share β) (ts : List (β × (β × β))) (f : β × β → Share β) :
    composeOutputs ofBits set ((ts.map Prod.snd).map f) ((ts.map fun t => t.1 + (t.2.1 + t.2.2)).map Wo.bits) =
      .ok (ts.map fun t => set (f t.2) (t.1 + (t.2.1 + t.2.2))) := by
  induction ts with
  | nil => rfl
  | cons t ts ih =>
    simp only [List.map_cons, composeOutputs, hof]
    rw [ih]
    rfl

omit [YaoRng R] [YaoNet M] [Sample R β] in
theorem spec_composeFinish (hW : Wo.Lawful) (hs : 0 < Wo.size) {ofBits : List Bool → Except Err β}
    (hof : ∀ v, ofBits (Wo.bits v) = .ok v) {res : PartyID → List (Share β)} (ts : List (β × (β × β)))
    (hr : Partial res (ts.map Prod.snd)) (hst : Corr ty st) :
    Spec (M := M) (fun i => composeFinish Wo.size ofBits (res i)
      ((three (some ((ts.map fun t => t.1 + (t.2.1 + t.2.2)).flatMap Wo.bits))
        (some ((ts.map fun t => t.1 + (t.2.1 + t.2.2)).flatMap Wo.bits)) none : PartyID → Option (List Bool)) i)) st
      (fun r st' => IsShares r (ts.map Prod.fst) ∧ Corr ty st') := by
  unfold Partial at hr
  subst hr
  have e := chunks_flatMap hs hW.length (ts.map fun t => t.1 + (t.2.1 + t.2.2))
  have key : Spec (M := M) (E := Err) (fun i => pure ((three (ts.map fun t => ⟨t.1 + (t.2.1 + t.2.2), -t.2.2⟩)
      (ts.map fun t => ⟨-t.2.1, t.1 + (t.2.1 + t.2.2)⟩) (ts.map fun t => ⟨-t.2.2, -t.2.1⟩) :
      PartyID → List (Share β)) i)) st (fun r st' => IsShares r (ts.map Prod.fst) ∧ Corr ty st') := by
    refine Spec.pure ⟨?_, hst⟩
    show Cols IsShare _ _
    clear e
    induction ts with
    | nil =>
      have : (three [] [] [] : PartyID → List (Share β)) = fun _ => [] := by funext i; cases i <;> rfl
      simp only [List.map_nil]
      rw [this]; exact Cols.nil
    | cons t ts ih =>
      have h : IsShare (three ⟨t.1 + (t.2.1 + t.2.2), -t.2.2⟩ ⟨-t.2.1, t.1 + (t.2.1 + t.2.2)⟩ ⟨-t.2.2, -t.2.1⟩) t.1 := by
        refine ⟨fun i => ?_, ?_⟩
        · cases i <;> rfl
        · show t.1 + (t.2.1 + t.2.2) + -t.2.1 + -t.2.2 = t.1
          abel
      refine cast ?_ (Cols.cons h ih)
      congr 1
      funext i; cases i <;> rfl
  refine (spec_stateId hst).bind ?_
  rintro _ _ ⟨rfl, rfl⟩
  refine cast ?_ key
  unfold Spec
  congr 1
  funext i
  have h0 := composeOutputs_eq hof (fun s v => { s with a := v }) ts fun c => ⟨0, -c.2⟩
  have h1 := composeOutputs_eq hof (fun s v => { s with b := v }) ts fun c => ⟨-c.1, 0⟩
  cases i <;> simp only [three_0, three_1, three_2, e, h0, h1, orFail]
  simp only [List.map_map, Function.comp_def]

omit [YaoRng R] [YaoNet M] [Sample R β] [AddCommGroup β] in
theorem splitShares {x : PartyID → List (Share α)} {vs : List α} (hx : IsShares x vs) :
    ∃ ts : List (α × α), ts.map (fun t => t.1 + t.2) = vs ∧
      (x ID1).map (fun s => s.a + s.b) = ts.map Prod.fst ∧ (x ID2).map (fun s => s.a) = ts.map Prod.snd := by
  obtain ⟨l, rfl, hl⟩ := hx
  induction hl with
  | nil => exact ⟨[], rfl, rfl, rfl⟩
  | @cons s v l vs h _ ih =>
    obtain ⟨ts, h1, h2, h3⟩ := ih
    refine ⟨((s ID1).a + (s ID1).b, (s ID2).a) :: ts, ?_, ?_, ?_⟩
    · rw [List.map_cons, h1]; simp only; rw [share_split h]
    · simpa using h2
    · simpa using h3

/-- Parties that evaluate a garbled circuit on shared inputs get shares of what the circuit computes. -/
theorem spec_blueprint (hWi : Wi.Lawful) (hWo : Wo.Lawful) (hs : 0 < Wo.size) {ofBits : List Bool → Except Err β}
    (hof : ∀ v, ofBits (Wo.bits v) = .ok v) (hH : HashSeparates (YaoNet.hash M))
    {x : PartyID → List (Share α)} {vs : List α} (hx : IsShares x vs) {outs : List β}
    {circ : List Label → List Label → List Label → Circ Label (List Label)}
    (hc : ∀ (d : Label) (ts : List (α × α)) (cs : List β), ts.map (fun t => t.1 + t.2) = vs →
      cs.length = outs.length → ∀ {a a' b b' c c' : List Label},
      All3 (Enc d) a a' (ts.flatMap fun t => Wi.bits t.1) → All3 (Enc d) b b' (ts.flatMap fun t => Wi.bits t.2) →
      All3 (Enc d) c c' (cs.flatMap Wo.bits) →
      CSpec (Enc d) (fun r r' => All3 (Enc d) r r' ((List.zipWith (· + ·) outs cs).flatMap Wo.bits))
        (circ a b c) (circ a' b' c')) (hst : Corr ty st) :
    Spec (M := M) (fun i => blueprint Wi Wo ofBits outs.length circ (x i)) st (fun r st' =>
      IsShares r outs ∧ Corr ty st') := by
  obtain ⟨ts, hts, e1, e2⟩ := splitShares hx
  refine (spec_delta hst).bind ?_
  rintro delta st₁ ⟨⟨d, hd⟩, hst₁⟩
  refine (spec_addedMany (M := M) hWi (n := vs.length) (fun i => Cols.length (P := IsShare) hx i) hd hst₁).bind ?_
  rintro z st₂ ⟨⟨h1, h2⟩, hst₂⟩
  refine (spec_composeInputs hWo outs.length hd hst₂).bind ?_
  rintro z' st₃ ⟨⟨ks, hks, hp, h3⟩, hst₃⟩
  obtain ⟨h1, g1⟩ := isYShare_iff.1 h1
  obtain ⟨h2, g2⟩ := isYShare_iff.1 h2
  obtain ⟨h3, g3⟩ := isYShare_iff.1 h3
  have f1 : ((x ID1).flatMap fun s => Wi.bits (s.a + s.b)) = ts.flatMap fun t => Wi.bits t.1 := by
    have : ∀ l : List (Share α), (l.flatMap fun s => Wi.bits (s.a + s.b)) = (l.map fun s => s.a + s.b).flatMap Wi.bits :=
      fun l => (List.flatMap_map ..).symm
    rw [this, e1, List.flatMap_map]
  have f2 : ((x ID2).flatMap fun s => Wi.bits s.a) = ts.flatMap fun t => Wi.bits t.2 := by
    have : ∀ l : List (Share α), (l.flatMap fun s => Wi.bits s.a) = (l.map fun s => s.a).flatMap Wi.bits :=
      fun l => (List.flatMap_map ..).symm
    rw [this, e2, List.flatMap_map]
  rw [f1] at h1
  rw [f2] at h2
  have hcirc := hc d ts (ks.map fun c => c.1 + c.2) hts (by simp [hks]) h1 h2 h3
  have h12 : circ (z ID2).1 (z ID2).2 (z' ID2).2 = circ (z ID1).1 (z ID1).2 (z' ID1).2 := by
    rw [g1, g2, g3]
  have hdec := (spec_outputLabels (M := M) (c := fun i => circ (z i).1 (z i).2 (z' i).2) hd hcirc h12 hst₃).mono
    (Q' := fun r _ => Separated (YaoNet.hash M) (r ID1)) (by
      rintro r - ⟨zs, g', -, e⟩
      rw [e]
      exact separated_of_hash hH hd.color zs)
  refine (spec_evalOpen01 (c := fun i => circ (z i).1 (z i).2 (z' i).2) hd hcirc h12 hst₃ hdec).bind ?_
  rintro _ st₄ ⟨rfl, hst₄⟩
  have ez : (List.zipWith (· + ·) outs (ks.map fun c => c.1 + c.2)) =
      (outs.zip ks).map fun t => t.1 + (t.2.1 + t.2.2) := by
    rw [List.zipWith_map_right, List.zip, List.map_zipWith]
  have es : (outs.zip ks).map Prod.snd = ks := List.map_snd_zip (by omega)
  have ef : (outs.zip ks).map Prod.fst = outs := List.map_fst_zip (by omega)
  rw [ez]
  have := spec_composeFinish (M := M) hWo hs hof (outs.zip ks) (res := fun i => (z' i).1) (by rw [es]; exact hp) hst₄
  rwa [ef] at this

omit [YaoRng R] [YaoNet M] [Sample R β] [AddCommGroup β] [AddCommGroup α] in
theorem exists_groups {τ : Type} (m : Nat) (ts : List τ) (cs : List β) (h : cs.length = m * ts.length) :
    ∃ gs : List (τ × List β), gs.map Prod.fst = ts ∧ gs.flatMap Prod.snd = cs ∧ ∀ t ∈ gs, t.2.length = m := by
  induction ts generalizing cs with
  | nil => exact ⟨[], rfl, by simpa using (List.eq_nil_of_length_eq_zero (by simpa using h)).symm, by simp⟩
  | cons t ts ih =>
    rw [List.length_cons, Nat.mul_succ] at h
    obtain ⟨gs, h1, h2, h3⟩ := ih (cs.drop m) (by rw [List.length_drop]; omega)
    refine ⟨(t, cs.take m) :: gs, by simp [h1], by simp [h2], ?_⟩
    rintro g hg
    rcases List.mem_cons.1 hg with rfl | hg
    · simp; omega
    · exact h3 g hg

omit [YaoRng R] [YaoNet M] [Sample R β] [AddCommGroup α] in
theorem zipWith_groups {τ : Type} {m : Nat} (gs : List (τ × List β)) (g : τ → List β)
    (h : ∀ t ∈ gs, t.2.length = m) (hg : ∀ t ∈ gs, (g t.1).length = m) :
    List.zipWith (· + ·) ((gs.map Prod.fst).flatMap g) (gs.flatMap Prod.snd) =
      gs.flatMap fun t => List.zipWith (· + ·) (g t.1) t.2 := by
  induction gs with
  | nil => rfl
  | cons t gs ih =>
    rw [List.map_cons, List.flatMap_cons, List.flatMap_cons, List.flatMap_cons, List.zipWith_append,
      ih (fun t ht => h t (by simp [ht])) (fun t ht => hg t (by simp [ht]))]
    rw [h t (by simp), hg t (by simp)]

/-- The circuits that treat every input on its own, with `m` outputs each. -/
theorem spec_blueprintN (hWi : Wi.Lawful) (hWo : Wo.Lawful) (hi : 0 < Wi.size) (hs : 0 < Wo.size)
    {ofBits : List Bool → Except Err β}
    (hof : ∀ v, ofBits (Wo.bits v) = .ok v) (hH : HashSeparates (YaoNet.hash M))
    {x : PartyID → List (Share α)} {vs : List α} (hx : IsShares x vs) {m : Nat} (hm : 0 < m) {g : α → List β}
    (hg : ∀ v, (g v).length = m) {f : List Label → List Label → List Label → Circ Label (List Label)}
    (hf : ∀ (d : Label) (u v : α) (cs : List β), u + v ∈ vs → cs.length = m → ∀ {a a' b b' c c' : List Label},
      All3 (Enc d) a a' (Wi.bits u) → All3 (Enc d) b b' (Wi.bits v) → All3 (Enc d) c c' (cs.flatMap Wo.bits) →
      CSpec (Enc d) (fun r r' => All3 (Enc d) r r' ((List.zipWith (· + ·) (g (u + v)) cs).flatMap Wo.bits))
        (f a b c) (f a' b' c')) (hst : Corr ty st) :
    Spec (M := M) (fun i => blueprint Wi Wo ofBits (m * (x i).length) (overChunks Wi.size (Wo.size * m) f) (x i)) st
      (fun r st' => IsShares r (vs.flatMap g) ∧ Corr ty st') := by
  have hl : (vs.flatMap g).length = m * vs.length := by
    simp [List.length_flatMap, hg, Nat.mul_comm]
  simp only [fun i => Cols.length (P := IsShare) hx i, ← hl]
  refine spec_blueprint hWi hWo hs hof hH hx ?_ hst
  intro d ts cs hts hcs a a' b b' c c' h1 h2 h3
  have lts : ts.length = vs.length := by rw [← hts, List.length_map]
  obtain ⟨gs, rfl, rfl, hgs⟩ := exists_groups m ts cs (by rw [hcs, hl, lts])
  have e : vs.flatMap g = (gs.map Prod.fst).flatMap fun t => g (t.1 + t.2) := by
    rw [← hts, List.flatMap_map]
  rw [e, zipWith_groups gs (fun t => g (t.1 + t.2)) hgs (fun t _ => hg _), List.flatMap_assoc]
  rw [List.flatMap_map] at h1 h2
  rw [List.flatMap_assoc] at h3
  refine spec_overChunks hi (Nat.mul_pos hs hm) (fun t _ => hWi.length _) (fun t _ => hWi.length _) ?_ ?_ h1 h2 h3
  · intro t ht
    simp [List.length_flatMap, hWo.length, hgs t ht, Nat.mul_comm]
  · intro t ht xs xs' ys ys' zs zs' k1 k2 k3
    refine hf d t.1.1 t.1.2 t.2 ?_ (hgs t ht) k1 k2 k3
    rw [← hts, List.map_map]
    exact List.mem_map.2 ⟨t, ht, rfl⟩

/-- The circuits that treat every input on its own, with one output each. -/
theorem spec_blueprint1 (hWi : Wi.Lawful) (hWo : Wo.Lawful) (hi : 0 < Wi.size) (hs : 0 < Wo.size)
    {ofBits : List Bool → Except Err β}
    (hof : ∀ v, ofBits (Wo.bits v) = .ok v) (hH : HashSeparates (YaoNet.hash M))
    {x : PartyID → List (Share α)} {vs : List α} (hx : IsShares x vs) {g : α → β}
    {f : List Label → List Label → List Label → Circ Label (List Label)}
    (hf : ∀ (d : Label) (u v : α) (c₁ : β), u + v ∈ vs → ∀ {a a' b b' c c' : List Label},
      All3 (Enc d) a a' (Wi.bits u) → All3 (Enc d) b b' (Wi.bits v) → All3 (Enc d) c c' (Wo.bits c₁) →
      CSpec (Enc d) (fun r r' => All3 (Enc d) r r' (Wo.bits (g (u + v) + c₁))) (f a b c) (f a' b' c'))
    (hst : Corr ty st) :
    Spec (M := M) (fun i => blueprint Wi Wo ofBits (x i).length (overChunks Wi.size Wo.size f) (x i)) st
      (fun r st' => IsShares r (vs.map g) ∧ Corr ty st') := by
  have := spec_blueprintN (M := M) (f := f) (m := 1) (g := fun v => [g v]) hWi hWo hi hs hof hH hx (by omega)
    (fun _ => rfl) (by
      intro d u v cs hv hcs a a' b b' c c' h1 h2 h3
      obtain ⟨c₁, rfl⟩ := List.length_eq_one_iff.1 hcs
      simp only [List.flatMap_cons, List.flatMap_nil, List.append_nil, List.zipWith_cons_cons, List.zipWith_nil_left] at h3 ⊢
      exact hf d u v c₁ hv h1 h2 h3) hst
  simpa only [Nat.one_mul, Nat.mul_one, ← List.map_eq_flatMap] using this

omit [YaoRng R] [YaoNet M] [Sample R β] [AddCommGroup α] [AddCommGroup β] in
theorem exists_zip {τ : Type} {ts : List τ} {cs : List β} (h : cs.length = ts.length) :
    ∃ gs : List (τ × β), gs.map Prod.fst = ts ∧ gs.map Prod.snd = cs :=
  ⟨ts.zip cs, List.map_fst_zip (by omega), List.map_snd_zip (by omega)⟩

/-- The circuits that treat every input with a public value. -/
theorem spec_blueprintP (hW : Wo.Lawful) (hs : 0 < Wo.size)
    {ofBits : List Bool → Except Err β}
    (hof : ∀ v, ofBits (Wo.bits v) = .ok v) (hH : HashSeparates (YaoNet.hash M))
    {x : PartyID → List (Share β)} {vs ps : List β} (hx : IsShares x vs) (hl : ps.length = vs.length) {g : β → β → β}
    {f : List Label → List Label → List Bool → List Label → Circ Label (List Label)}
    (hf : ∀ (d : Label) (u v p c₁ : β), u + v ∈ vs → p ∈ ps → ∀ {a a' b b' c c' : List Label},
      All3 (Enc d) a a' (Wo.bits u) → All3 (Enc d) b b' (Wo.bits v) → All3 (Enc d) c c' (Wo.bits c₁) →
      CSpec (Enc d) (fun r r' => All3 (Enc d) r r' (Wo.bits (g (u + v) p + c₁))) (f a b (Wo.bits p) c)
        (f a' b' (Wo.bits p) c'))
    (hst : Corr ty st) :
    Spec (M := M) (fun i => blueprint Wo Wo ofBits vs.length
      (fun a b c => overChunksPublic Wo.size f a b (ps.flatMap Wo.bits) c) (x i)) st
      (fun r st' => IsShares r (List.zipWith g vs ps) ∧ Corr ty st') := by
  have ho : (List.zipWith g vs ps).length = vs.length := by simp [hl]
  rw [← ho]
  refine spec_blueprint hW hW hs hof hH hx ?_ hst
  intro d ts cs hts hcs a a' b b' c c' h1 h2 h3
  have lts : ts.length = vs.length := by rw [← hts, List.length_map]
  obtain ⟨qs, rfl, rfl⟩ := exists_zip (ts := ts) (cs := ps) (by omega)
  rw [List.length_map] at lts
  obtain ⟨gs, rfl, rfl⟩ := exists_zip (ts := qs) (cs := cs) (by omega)
  subst hts
  have e : List.zipWith (· + ·) (List.zipWith g (((gs.map Prod.fst).map Prod.fst).map fun t => t.1 + t.2)
      ((gs.map Prod.fst).map Prod.snd)) (gs.map Prod.snd) =
      gs.map fun t => g (t.1.1.1 + t.1.1.2) t.1.2 + t.2 := by
    simp only [List.map_map, List.zipWith_map, List.zipWith_self]
    rfl
  simp only [List.flatMap_map] at h1 h2 h3 ⊢
  rw [e, List.flatMap_map]
  refine spec_overChunksPublic hs (fun t _ => hW.length _) (fun t _ => hW.length _) (fun t _ => hW.length _)
    (fun t _ => hW.length _) ?_ h1 h2 h3
  intro t ht xs xs' ys ys' zs zs' k1 k2 k3
  refine hf d t.1.1.1 t.1.1.2 t.1.2 t.2 ?_ ?_ k1 k2 k3
  · simp only [List.map_map]
    exact List.mem_map.2 ⟨t, ht, rfl⟩
  · simp only [List.map_map]
    exact List.mem_map.2 ⟨t, ht, rfl⟩

/-- The circuits that treat every input of the first half with one of the second half. -/
theorem spec_blueprintH (hW : Wo.Lawful) (hs : 0 < Wo.size)
    {ofBits : List Bool → Except Err β}
    (hof : ∀ v, ofBits (Wo.bits v) = .ok v) (hH : HashSeparates (YaoNet.hash M))
    {x y : PartyID → List (Share β)} {vs us : List β} (hx : IsShares x vs) (hy : IsShares y us)
    (hl : us.length = vs.length) {g : β → β → β}
    {f : List Label → List Label → List Label → List Label → List Label → Circ Label (List Label)}
    (hf : ∀ (d : Label) (x1 x2 y1 y2 c₁ : β), x1 + x2 ∈ vs → y1 + y2 ∈ us → ∀ {a a' b b' u u' v v' c c' : List Label},
      All3 (Enc d) a a' (Wo.bits x1) → All3 (Enc d) b b' (Wo.bits x2) → All3 (Enc d) u u' (Wo.bits y1) →
      All3 (Enc d) v v' (Wo.bits y2) → All3 (Enc d) c c' (Wo.bits c₁) →
      CSpec (Enc d) (fun r r' => All3 (Enc d) r r' (Wo.bits (g (x1 + x2) (y1 + y2) + c₁))) (f a b u v c)
        (f a' b' u' v' c'))
    (hst : Corr ty st) :
    Spec (M := M) (fun i => blueprint Wo Wo ofBits vs.length (overHalves Wo.size f) (x i ++ y i)) st
      (fun r st' => IsShares r (List.zipWith g vs us) ∧ Corr ty st') := by
  have ho : (List.zipWith g vs us).length = vs.length := by simp [hl]
  rw [← ho]
  have hxy : IsShares (fun i => x i ++ y i) (vs ++ us) := Cols.append hx hy
  refine spec_blueprint hW hW hs hof hH hxy ?_ hst
  intro d ts cs hts hcs a a' b b' c c' h1 h2 h3
  have lts : ts.length = vs.length + us.length := by rw [← List.length_append, ← hts, List.length_map]
  rw [← List.take_append_drop vs.length ts] at hts h1 h2
  rw [List.map_append] at hts
  obtain ⟨t1, t2⟩ := List.append_inj hts (by simp; omega)
  generalize ts.take vs.length = ts₁ at *
  generalize ts.drop vs.length = ts₂ at *
  subst t1 t2
  simp only [List.length_map] at hl ho hcs
  obtain ⟨qs, rfl, rfl⟩ := exists_zip (ts := ts₁) (cs := ts₂) (by omega)
  rw [ho] at hcs
  obtain ⟨gs, rfl, rfl⟩ := exists_zip (ts := qs) (cs := cs) (by rw [hcs, List.length_map])
  have e : List.zipWith (· + ·) (List.zipWith g (((gs.map Prod.fst).map Prod.fst).map fun t => t.1 + t.2)
      (((gs.map Prod.fst).map Prod.snd).map fun t => t.1 + t.2)) (gs.map Prod.snd) =
      gs.map fun t => g (t.1.1.1 + t.1.1.2) (t.1.2.1 + t.1.2.2) + t.2 := by
    simp only [List.map_map, List.zipWith_map, List.zipWith_self]
    rfl
  rw [List.flatMap_append] at h1 h2
  simp only [List.flatMap_map] at h1 h2 h3 ⊢
  rw [e, List.flatMap_map]
  refine spec_overHalves hs (fun t _ => hW.length _) (fun t _ => hW.length _) (fun t _ => hW.length _)
    (fun t _ => hW.length _) (fun t _ => hW.length _) ?_ h1 h2 h3
  intro t ht xs xs' ys ys' us us' vs vs' zs zs' k1 k2 k3 k4 k5
  refine hf d _ _ _ _ _ ?_ ?_ k1 k2 k3 k4 k5
  · simp only [List.map_map]
    exact List.mem_map.2 ⟨t, ht, rfl⟩
  · simp only [List.map_map]
    exact List.mem_map.2 ⟨t, ht, rfl⟩

end Blueprint

end Verif.Yao
