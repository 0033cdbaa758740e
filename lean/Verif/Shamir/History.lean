import Verif.Shamir.SetupLemmas
import Verif.Spec.Pairs

/-!
# Histories of uses of the preprocessed pairs
-/

namespace Verif

variable {α : Type}

theorem serve_append {h : Hist} {stock : List α} {b : List (List α)} (c : List (List α)) :
    (∀ out left bs, serve h stock b = .ok (out, left, bs) →
      serve h stock (b ++ c) = .ok (out, left, bs ++ c)) ∧
    (serve h stock b = .error .overdrawn → serve h stock (b ++ c) = .error .overdrawn) := by
  induction h generalizing stock b with
  | done =>
    constructor
    · intro out left bs hs
      simp only [serve, Except.ok.injEq, Prod.mk.injEq] at hs ⊢
      obtain ⟨rfl, rfl, rfl⟩ := hs
      exact ⟨rfl, rfl, rfl⟩
    · intro hs; simp [serve] at hs
  | take rest ih =>
    have key : ∀ (x : α) (stock : List α) (b : List (List α)),
        (∀ out left bs, (serve rest stock b >>= fun r => .ok (x :: r.1, r.2.1, r.2.2)) =
            .ok (out, left, bs) →
          (serve rest stock (b ++ c) >>= fun r => .ok (x :: r.1, r.2.1, r.2.2)) =
            .ok (out, left, bs ++ c)) ∧
        ((serve rest stock b >>= fun r =>
            (.ok (x :: r.1, r.2.1, r.2.2) : Except Unserved (List α × List α × List (List α)))) =
            .error .overdrawn →
          (serve rest stock (b ++ c) >>= fun r =>
            (.ok (x :: r.1, r.2.1, r.2.2) : Except Unserved (List α × List α × List (List α)))) =
            .error .overdrawn) := by
      intro x stock b
      obtain ⟨h1, h2⟩ := ih (stock := stock) (b := b)
      constructor
      · intro out left bs hs
        rw [bind_ok_iff] at hs ⊢
        obtain ⟨⟨o, l, b'⟩, e, hs⟩ := hs
        refine ⟨_, h1 _ _ _ e, ?_⟩
        simp only [Except.ok.injEq, Prod.mk.injEq] at hs ⊢
        exact ⟨hs.1, hs.2.1, by rw [hs.2.2]⟩
      · intro hs
        cases e : serve rest stock b with
        | ok v => rw [e] at hs; simp [bind, Except.bind] at hs
        | error u =>
          rw [e] at hs
          cases u
          · rw [h2 e]; rfl
          · simp [bind, Except.bind] at hs
    rw [serve.eq_def, serve.eq_def]
    simp only
    cases hx : stock.getLast? with
    | some x => exact key x _ _
    | none =>
      cases b with
      | nil => simp
      | cons b' bs' =>
        simp only [List.cons_append]
        cases hb : b'.getLast? with
        | some x => exact key x _ _
        | none => simp
  | ensure num rest ih =>
    rw [serve.eq_def, serve.eq_def]
    simp only
    split
    · exact ih
    · cases b with
      | nil => simp
      | cons b' bs' =>
        simp only [List.cons_append]
        split
        · exact ih
        · simp
  | fork num child rest ih₁ ih₂ =>
    rw [serve.eq_def, serve.eq_def]
    simp only
    split
    · obtain ⟨h1, h2⟩ := ih₁ (stock := stock.take num) (b := b)
      constructor
      · intro out left bs hs
        simp only [bind_ok_iff] at hs ⊢
        obtain ⟨⟨o, l, b'⟩, e, ⟨o', l', b''⟩, e', hs⟩ := hs
        refine ⟨_, h1 _ _ _ e, _, (ih₂ (stock := stock.drop num) (b := b')).1 _ _ _ e', ?_⟩
        simp only [Except.ok.injEq, Prod.mk.injEq] at hs ⊢
        exact ⟨hs.1, hs.2.1, by rw [hs.2.2]⟩
      · intro hs
        cases e : serve child (stock.take num) b with
        | error u =>
          rw [e] at hs
          cases u
          · rw [h2 e]; rfl
          · simp [bind, Except.bind] at hs
        | ok v =>
          obtain ⟨o, l, b'⟩ := v
          rw [e] at hs
          rw [h1 _ _ _ e]
          simp only [bind, Except.bind] at hs ⊢
          cases e' : serve rest (stock.drop num) b' with
          | ok v => rw [e'] at hs; simp at hs
          | error u =>
            rw [e'] at hs
            cases u
            · rw [(ih₂ (stock := stock.drop num) (b := b')).2 e']
            · simp at hs
    · simp

end Verif

namespace Verif.Shamir

variable {n : Nat} {F R M Seed : Type} [Field F]

/-- Run a history of uses of the state: every request calls `get_pair`, `ensure_pairs` and `fork` as they
are; the history of a child is run on the child's state right after the fork (the code runs it on
another network). Returned are the pairs handed out and the pairs left in all buffers. -/
def runHist (Seed : Type) [Sample R Seed] [Seedable R Seed] [Sample R F] [Codec M (List F)] :
    Hist → ShamirM n R F M (List (F × F) × List (F × F))
  | .done => do
    let s ← MPC.get
    pure ([], List.zip s.rng.rT s.rng.r2T)
  | .take rest => do
    let p ← getPair
    let r ← runHist Seed rest
    pure (p :: r.1, r.2)
  | .ensure num rest => do
    ensurePairs num
    runHist Seed rest
  | .fork num child rest => do
    let c ← fork (Seed := Seed) num
    let s ← MPC.get
    MPC.set c
    let r₁ ← runHist Seed child
    MPC.set s
    let r₂ ← runHist Seed rest
    pure (r₁.1 ++ r₂.1, r₁.2 ++ r₂.2)

/-- How the outcomes of all parties relate to serving the history from the common stock `buf`. -/
def Served (t : Nat) (h : Hist) (buf : List (Fin n → F × F))
    (r : Fin n → Except Err ((List (F × F) × List (F × F)) × ShamirState n R F)) : Prop :=
  ∃ batches : List (List (Fin n → F × F)), (∀ b ∈ batches, ∀ p ∈ b, IsPair t p) ∧
    match serve h buf batches with
    | .ok (out, left, rest) => rest = [] ∧ ∃ st' : Fin n → ShamirState n R F, ∀ i,
        r i = .ok ((out.map (· i), left.map (· i)), st' i)
    | .error .overdrawn => ∀ i, r i = .error (.panic "not enough corr rand pairs")
    | .error .dry => False

variable [Sample R Seed] [Seedable R Seed] [Sample R F] [Codec M (List F)]

theorem spec_runHist {t : Nat} {st : Fin n → ShamirState n R F} (hst : ShCorr t st)
    {buf : List (Fin n → F × F)} (hb : Buffered t (fun i => (st i).rng) buf) (h : Hist) :
    SpecE (M := M) (fun _ => runHist Seed h) st (Served t h buf) := by
  induction h generalizing st buf with
  | done =>
    unfold runHist
    refine SpecE.bind (Spec.get (Q := fun v st' => v = st ∧ st' = st) ⟨rfl, rfl⟩) ?_
    rintro v st' ⟨rfl, rfl⟩
    refine SpecE.pure ⟨[], by simp, rfl, st', fun i => ?_⟩
    simp only [hb.rT i, hb.r2T i]
    congr 3
    clear hb
    induction buf with
    | nil => rfl
    | cons p ps ih => simp [ih]
  | take rest ih =>
    rw [runHist]
    refine SpecE.bind (spec_getPair hst hb) ?_
    intro p st' hp
    have hk : ∃ batch stock, ((buf = stock ++ [p] ∧ batch = []) ∨
        (buf = [] ∧ batch = [stock ++ [p]] )) ∧ (∀ q ∈ stock ++ [p], IsPair t q) ∧
        ShCorr t st' ∧ Buffered t (fun i => (st' i).rng) stock := by
      rcases hp with ⟨stock, rfl, rfl⟩ | ⟨rfl, stock, k, hk, hf, rfl⟩
      · have := hst.setBuf (t := t) (buf := stock) fun p hp => hb.pairs p (by simp [hp])
        exact ⟨[], stock, Or.inl ⟨rfl, rfl⟩, hb.pairs, this,
          ⟨fun _ => rfl, fun _ => rfl, fun p hp => hb.pairs p (by simp [hp])⟩⟩
      · have hf' := freshPairs_isPair (a := k) hst.rng
        rw [hf] at hf'
        have := hst.refilled.setBuf (t := t) (buf := stock) fun p hp => hf' p (by simp [hp])
        exact ⟨[stock ++ [p]], stock, Or.inr ⟨rfl, rfl⟩, hf', this,
          ⟨fun _ => rfl, fun _ => rfl, fun p hp => hf' p (by simp [hp])⟩⟩
    obtain ⟨batch, stock, hcase, hpair, hst', hb'⟩ := hk
    refine SpecE.bindE (Q₁ := fun v st' => ∃ batches out left,
        (∀ b ∈ batches, ∀ p ∈ b, IsPair t p) ∧ serve rest stock batches = .ok (out, left, []) ∧
        v = fun i => (out.map (· i), left.map (· i)))
      (Qe := fun e => (e = fun _ => .panic "not enough corr rand pairs") ∧ ∃ batches,
        (∀ b ∈ batches, ∀ p ∈ b, IsPair t p) ∧ serve rest stock batches = .error .overdrawn)
      ((ih hst' hb').mono ?_) ?_ ?_
    · rintro r ⟨batches, hbs, hr⟩
      split at hr
      · rename_i out left rs e
        obtain ⟨rfl, st'', hr⟩ := hr
        exact Or.inr ⟨_, st'', hr, batches, out, left, hbs, e, rfl⟩
      · rename_i e
        exact Or.inl ⟨_, hr, rfl, batches, hbs, e⟩
      · exact hr.elim
    · rintro v st'' ⟨batches, out, left, hbs, e, rfl⟩
      refine SpecE.pure ⟨batch ++ batches, ?_, ?_⟩
      · intro b hb1 q hq
        rcases List.mem_append.mp hb1 with hb1 | hb1
        · rcases hcase with ⟨_, rfl⟩ | ⟨_, rfl⟩
          · simp at hb1
          · obtain rfl : b = stock ++ [p] := by simpa using hb1
            exact hpair q hq
        · exact hbs b hb1 q hq
      · have : serve (.take rest) buf (batch ++ batches) = .ok (p :: out, left, []) := by
          rcases hcase with ⟨rfl, rfl⟩ | ⟨rfl, rfl⟩
          · rw [serve.eq_def]
            simp [e, bind, Except.bind]
          · rw [serve.eq_def]
            simp [e, bind, Except.bind]
        rw [this]
        exact ⟨rfl, st'', fun i => rfl⟩
    · rintro _ ⟨rfl, batches, hbs, e⟩
      refine ⟨batch ++ batches, ?_, ?_⟩
      · intro b hb1 q hq
        rcases List.mem_append.mp hb1 with hb1 | hb1
        · rcases hcase with ⟨_, rfl⟩ | ⟨_, rfl⟩
          · simp at hb1
          · obtain rfl : b = stock ++ [p] := by simpa using hb1
            exact hpair q hq
        · exact hbs b hb1 q hq
      · have : serve (.take rest) buf (batch ++ batches) = .error .overdrawn := by
          rcases hcase with ⟨rfl, rfl⟩ | ⟨rfl, rfl⟩
          · rw [serve.eq_def]
            simp [e, bind, Except.bind]
          · rw [serve.eq_def]
            simp [e, bind, Except.bind]
        rw [this]
        exact fun _ => rfl
  | ensure num rest ih =>
    rw [runHist]
    refine SpecE.bind (spec_ensurePairs hst hb num) ?_
    intro _ st' hp
    by_cases hl : num ≤ buf.length
    · rw [if_pos hl] at hp
      subst hp
      refine (ih hst hb).mono ?_
      rintro r ⟨batches, hbs, hr⟩
      refine ⟨batches, hbs, ?_⟩
      rw [serve.eq_def]
      simpa only [hl, if_true] using hr
    · rw [if_neg hl] at hp
      subst hp
      set k := divCeil (num - buf.length) (t + 1) with hk
      have hst' := hst.withRng (g := afterBuffer t k fun i => (st i).rng) hst.rng.after
      have hb' := hb.after (a := k) hst.rng
      refine (ih hst' hb').mono ?_
      rintro r ⟨batches, hbs, hr⟩
      refine ⟨freshPairs t k (fun i => (st i).rng) :: batches, ?_, ?_⟩
      · intro b hb1
        rcases List.mem_cons.mp hb1 with rfl | hb1
        · exact freshPairs_isPair hst.rng
        · exact hbs b hb1
      · rw [serve.eq_def]
        have hlen : num ≤ (buf ++ freshPairs t k fun i => (st i).rng).length := by
          rw [List.length_append, freshPairs_length]
          have := divCeil_mul (num - buf.length) (Nat.succ_pos t)
          rw [hk]
          show num ≤ buf.length + divCeil (num - buf.length) t.succ * t.succ
          omega
        simpa only [hl, if_false, hlen, if_true] using hr
  | fork num child rest ih₁ ih₂ =>
    rw [runHist]
    by_cases hl : num ≤ buf.length
    swap
    · refine SpecE.bindE (Q₁ := fun _ _ => False)
        (Qe := fun e => e = fun _ => .panic "not enough corr rand pairs")
        ((spec_fork_fails hb (by omega)).mono fun r hr => Or.inl ⟨_, hr, rfl⟩)
        (fun _ _ hf => hf.elim) ?_
      rintro _ rfl
      refine ⟨[], by simp, ?_⟩
      rw [serve.eq_def]
      simp only [hl, if_false]
      exact fun _ => trivial
    refine SpecE.bind (spec_fork (Seed := Seed) hb hl) ?_
    rintro c sp ⟨rfl, rfl⟩
    refine SpecE.bind (Spec.get (Q := fun v st' => v = forkParent Seed st (buf.drop num) ∧
      st' = forkParent Seed st (buf.drop num)) ⟨rfl, rfl⟩) ?_
    rintro _ _ ⟨rfl, rfl⟩
    refine SpecE.bind (spec_set (Q := fun _ st' => st' = forkChild Seed st (buf.take num)) rfl) ?_
    rintro _ _ rfl
    have pc : ∀ p ∈ buf.take num, IsPair t p := fun p hp => hb.pairs p (List.mem_of_mem_take hp)
    have pp : ∀ p ∈ buf.drop num, IsPair t p := fun p hp => hb.pairs p (List.mem_of_mem_drop hp)
    refine SpecE.bindE (Q₁ := fun v _ => ∃ batches out left,
        (∀ b ∈ batches, ∀ p ∈ b, IsPair t p) ∧
        serve child (buf.take num) batches = .ok (out, left, []) ∧
        v = fun i => (out.map (· i), left.map (· i)))
      (Qe := fun e => (e = fun _ => .panic "not enough corr rand pairs") ∧ ∃ batches,
        (∀ b ∈ batches, ∀ p ∈ b, IsPair t p) ∧
        serve child (buf.take num) batches = .error .overdrawn)
      ((ih₁ (hst.forkChild pc) ⟨fun _ => rfl, fun _ => rfl, pc⟩).mono ?_) ?_ ?_
    · rintro r ⟨batches, hbs, hr⟩
      split at hr
      · rename_i out left rs e
        obtain ⟨rfl, st'', hr⟩ := hr
        exact Or.inr ⟨_, st'', hr, batches, out, left, hbs, e, rfl⟩
      · rename_i e
        exact Or.inl ⟨_, hr, rfl, batches, hbs, e⟩
      · exact hr.elim
    · rintro v st'' ⟨batches, out, left, hbs, e, rfl⟩
      refine SpecE.bind (spec_set (Q := fun _ st' => st' = forkParent Seed st (buf.drop num)) rfl) ?_
      rintro _ _ rfl
      refine SpecE.bindE (Q₁ := fun v _ => ∃ batches out left,
          (∀ b ∈ batches, ∀ p ∈ b, IsPair t p) ∧
          serve rest (buf.drop num) batches = .ok (out, left, []) ∧
          v = fun i => (out.map (· i), left.map (· i)))
        (Qe := fun e => (e = fun _ => .panic "not enough corr rand pairs") ∧ ∃ batches,
          (∀ b ∈ batches, ∀ p ∈ b, IsPair t p) ∧
          serve rest (buf.drop num) batches = .error .overdrawn)
        ((ih₂ (hst.forkParent pp) ⟨fun _ => rfl, fun _ => rfl, pp⟩).mono ?_) ?_ ?_
      · rintro r ⟨batches, hbs, hr⟩
        split at hr
        · rename_i out left rs e
          obtain ⟨rfl, st'', hr⟩ := hr
          exact Or.inr ⟨_, st'', hr, batches, out, left, hbs, e, rfl⟩
        · rename_i e
          exact Or.inl ⟨_, hr, rfl, batches, hbs, e⟩
        · exact hr.elim
      · rintro v st'' ⟨batches', out', left', hbs', e', rfl⟩
        refine SpecE.pure ⟨batches ++ batches', ?_, ?_⟩
        · intro b hb1
          rcases List.mem_append.mp hb1 with hb1 | hb1
          · exact hbs b hb1
          · exact hbs' b hb1
        · have h1 := (serve_append batches').1 _ _ _ e
          rw [serve.eq_def]
          simp only [hl, if_true, h1, bind, Except.bind, List.nil_append, e']
          exact ⟨trivial, st'', fun i => by simp⟩
      · rintro _ ⟨rfl, batches', hbs', e'⟩
        refine ⟨batches ++ batches', ?_, ?_⟩
        · intro b hb1
          rcases List.mem_append.mp hb1 with hb1 | hb1
          · exact hbs b hb1
          · exact hbs' b hb1
        · have h1 := (serve_append batches').1 _ _ _ e
          rw [serve.eq_def]
          simp only [hl, if_true, h1, bind, Except.bind, List.nil_append, e']
          exact fun _ => trivial
    · rintro _ ⟨rfl, batches, hbs, e⟩
      refine ⟨batches, hbs, ?_⟩
      rw [serve.eq_def]
      simp only [hl, if_true, e, bind, Except.bind]
      exact fun _ => trivial

end Verif.Shamir
