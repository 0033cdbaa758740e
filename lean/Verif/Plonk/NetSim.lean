import Verif.Plonk.Model
import Verif.Net.ManyE

/-!
# The PLONK drivers over a network: forking of states and closures on several networks

`joinWith` is how the prover starts its closures: the state is forked once for each closure, then the closures run, each on its
own network with its own state.  `CSpec` and `MSpec` describe code that uses one network and all networks; the invariant `Inv N k`
of the states says that there is still a supply of `k`.
-/

namespace Verif.Plonk

variable {ι S M : Type}

/-- What a closure returns when it has run with the state `s`. -/
def closure {J : Type} [Inhabited J] (i : ι) : Option (S × MPC ι S M Err J) → Prog ι M Err J
  | some (s, p) => (p i s).bind fun x => .ret x.1
  | none => .ret default

/-- `let mut state_j = state.fork(n_j)?` for all closures, then one closure on each network.
`/repo/co-circom/co-plonk/src/round2.rs:153-161`, `/repo/co-circom/co-plonk/src/round3.rs:20-84`, `279-297` -/
def joinWith {k : Nat} {J : Type} [Inhabited J] (fork : Nat → MPC ι S M Err S) (ps : List (Nat × MPC ι S M Err J)) :
    MPCₙ k ι S M J (List J) := do
  let ss ← ps.mapM fun p => MPCₙ.first (fork p.1)
  let rs ← fun i s => MPCₙ.join (fun c => closure i (ss.zip (ps.map (·.2)))[c.val]?) i s
  pure (rs.take ps.length)

variable [DecidableEq ι]

theorem Spec.and' {α : Type} {p : ι → MPC ι S M Err α} {st : ι → S} {Q Q' : (ι → α) → (ι → S) → Prop} (h : Spec p st Q)
    (h' : Spec p st Q') : Spec p st (fun v s => Q v s ∧ Q' v s) := by
  obtain ⟨v, l, hr, hQ⟩ := h
  obtain ⟨v', l', hr', hQ'⟩ := h'
  have e := (hr.unique hr').1
  obtain rfl : v = v' := by
    funext i
    have := congrFun e i
    simpa using this
  exact ⟨v, l, hr, hQ, hQ'⟩

/-- Code of one network: with a supply of `k` it returns, or all parties fail and `bad N` holds. -/
def CSpec (Inv : Nat → Nat → (ι → S) → Prop) (bad : Nat → Prop) {α : Type} (k : Nat) (q : ι → MPC ι S M Err α)
    (Q : (ι → α) → Prop) : Prop :=
  ∀ N K st, Inv N (k + K) st → SpecE q st (AllOrNone (bad N) fun v s => Q v ∧ Inv N K s)

/-- Code that uses all networks. -/
def MSpec (Inv : Nat → Nat → (ι → S) → Prop) (bad : Nat → Prop) (N : Nat) {n : Nat} {J α : Type} (k : Nat)
    (p : ι → MPCₙ n ι S M J α) (Q : (ι → α) → Prop) : Prop :=
  ∀ K st, Inv N (k + K) st → Specₙ (bad (N + 1)) p st fun v s => Q v ∧ Inv N K s

/-- What is needed of the invariant. -/
structure Supply (Inv : Nat → Nat → (ι → S) → Prop) (bad : Nat → Prop) (fork : Nat → MPC ι S M Err S) : Prop where
  mono : ∀ {N k j st}, Inv N k st → j ≤ k → Inv N j st
  bad : ∀ {N}, bad N → bad (N + 1)
  fork : ∀ {N n K st}, 0 < n → Inv N (n + K) st → Spec (fun _ => fork n) st fun s s' => Inv (N + 1) n s ∧ Inv N K s'

variable {Inv : Nat → Nat → (ι → S) → Prop} {bad : Nat → Prop} {fork : Nat → MPC ι S M Err S} {n : Nat} {J : Type}

section Rules

variable {α β : Type} {k j N : Nat}

omit [DecidableEq ι] in
theorem allOrNone_mono {b b' : Prop} {Q Q' : (ι → α) → (ι → S) → Prop} {r : ι → Except Err (α × S)} (h : AllOrNone b Q r)
    (hb : b → b') (hQ : ∀ v s, Q v s → Q' v s) : AllOrNone b' Q' r := by
  rcases h with ⟨e, he, hb'⟩ | ⟨v, s, hv, h⟩
  · exact .inl ⟨e, he, hb hb'⟩
  · exact .inr ⟨v, s, hv, hQ _ _ h⟩

theorem CSpec.ofSpec {q : ι → MPC ι S M Err α} {Q : (ι → α) → Prop}
    (h : ∀ N K st, Inv N (k + K) st → Spec q st fun v s => Q v ∧ Inv N K s) : CSpec Inv bad k q Q :=
  fun N K st hst => (h N K st hst).specE.mono fun _ hr => .inr hr

theorem CSpec.pure {a : ι → α} {Q : (ι → α) → Prop} (h : Q a) : CSpec (M := M) Inv bad 0 (fun i => Pure.pure (a i)) Q := by
  refine CSpec.ofSpec fun N K st hst => Spec.pure ⟨h, ?_⟩
  rwa [Nat.zero_add] at hst

theorem CSpec.bind {q : ι → MPC ι S M Err α} {f : ι → α → MPC ι S M Err β} {Q : (ι → α) → Prop} {Q' : (ι → β) → Prop}
    (h : CSpec Inv bad k q Q) (h' : ∀ a, Q a → CSpec Inv bad j (fun i => f i (a i)) Q') :
    CSpec Inv bad (k + j) (fun i => q i >>= f i) Q' := by
  intro N K st hst
  rw [Nat.add_assoc] at hst
  refine SpecE.bindAll (h N _ st hst) (fun v s hv => h' v hv.1 N K s hv.2) fun e hb => .inl ⟨e, fun _ => rfl, hb⟩

theorem CSpec.mono {q : ι → MPC ι S M Err α} {Q Q' : (ι → α) → Prop} (h : CSpec Inv bad k q Q) (hQ : ∀ a, Q a → Q' a) :
    CSpec Inv bad k q Q' :=
  fun N K st hst => (h N K st hst).mono fun _ hr => allOrNone_mono hr id fun v _ hv => ⟨hQ v hv.1, hv.2⟩

variable (hS : Supply Inv bad fork)

include hS

theorem CSpec.weak {q : ι → MPC ι S M Err α} {Q : (ι → α) → Prop} (h : CSpec Inv bad k q Q) (hk : k ≤ j) :
    CSpec Inv bad j q Q := by
  intro N K st hst
  refine (h N (j - k + K) st ?_).mono fun _ hr => allOrNone_mono hr id fun v s hv => ⟨hv.1, hS.mono hv.2 (by omega)⟩
  rwa [show k + (j - k + K) = j + K by omega]

omit hS in
theorem MSpec.pure {a : ι → α} {Q : (ι → α) → Prop} (h : Q a) :
    MSpec (M := M) (n := n) (J := J) Inv bad N 0 (fun i => Pure.pure (a i)) Q := by
  intro K st hst
  refine Specₙ.pure ⟨h, ?_⟩
  rwa [Nat.zero_add] at hst

omit hS in
theorem MSpec.bind {q : ι → MPCₙ n ι S M J α} {f : ι → α → MPCₙ n ι S M J β} {Q : (ι → α) → Prop} {Q' : (ι → β) → Prop}
    (h : MSpec Inv bad N k q Q) (h' : ∀ a, Q a → MSpec Inv bad N j (fun i => f i (a i)) Q') :
    MSpec Inv bad N (k + j) (fun i => q i >>= f i) Q' := by
  intro K st hst
  rw [Nat.add_assoc] at hst
  exact Specₙ.bind (h _ st hst) fun v s hv => h' v hv.1 K s hv.2

omit hS in
theorem MSpec.mono {q : ι → MPCₙ n ι S M J α} {Q Q' : (ι → α) → Prop} (h : MSpec Inv bad N k q Q) (hQ : ∀ a, Q a → Q' a) :
    MSpec Inv bad N k q Q' :=
  fun K st hst => (h K st hst).mono fun v _ hv => ⟨hQ v hv.1, hv.2⟩

theorem MSpec.weak {q : ι → MPCₙ n ι S M J α} {Q : (ι → α) → Prop} (h : MSpec Inv bad N k q Q) (hk : k ≤ j) :
    MSpec Inv bad N j q Q := by
  intro K st hst
  refine (h (j - k + K) st ?_).mono fun v s hv => ⟨hv.1, hS.mono hv.2 (by omega)⟩
  rwa [show k + (j - k + K) = j + K by omega]

theorem MSpec.first {q : ι → MPC ι S M Err α} {Q : (ι → α) → Prop} (h : CSpec Inv bad k q Q) :
    MSpec (n := n) (J := J) Inv bad N k (fun i => MPCₙ.first (q i)) Q :=
  fun K st hst => Specₙ.first ((h N K st hst).mono fun _ hr => allOrNone_mono hr hS.bad fun _ _ h => h)

/-- The forks. -/
theorem spec_forks (ns : List Nat) (hn : ∀ x ∈ ns, 0 < x) (K : Nat) (st : ι → S) (hst : Inv N (ns.sum + K) st) :
    Specₙ (k := n) (J := J) (bad (N + 1)) (fun _ => ns.mapM fun x => MPCₙ.first (fork x)) st fun v s =>
      (∃ l : List (ι → S), v = (fun i => l.map (· i)) ∧ List.Forall₂ (fun x t => Inv (N + 1) x t) ns l) ∧ Inv N K s := by
  induction ns generalizing st with
  | nil =>
    refine Specₙ.pure ⟨⟨[], rfl, .nil⟩, ?_⟩
    simpa using hst
  | cons x ns ih =>
    simp only [List.mapM_cons]
    rw [List.sum_cons, Nat.add_assoc] at hst
    refine Specₙ.bind (Specₙ.first ((hS.fork (hn x (by simp)) hst).specE.mono fun _ hr => .inr hr)) ?_
    rintro t s ⟨ht, hs⟩
    refine Specₙ.bind (ih (fun y hy => hn y (by simp [hy])) s hs) ?_
    rintro v s' ⟨⟨l, rfl, hl⟩, hs'⟩
    refine Specₙ.pure (v := fun i => t i :: l.map (· i)) ?_
    exact ⟨⟨t :: l, rfl, .cons ht hl⟩, hs'⟩

omit hS in
/-- The closures, each with its own state. -/
theorem specₙ_closures [Fintype ι] [Inhabited J] {bad : Prop} (qs : List (Nat × (ι → MPC ι S M Err J) × ((ι → J) → Prop)))
    (hlen : qs.length ≤ n + 1) (l : List (ι → S)) (s : ι → S)
    (h : List.Forall₂ (fun x t => SpecE x.2.1 t (AllOrNone bad fun v _ => x.2.2 v)) qs l) :
    Specₙ (k := n) bad (fun i => (fun i' t => MPCₙ.join (fun c => closure (M := M) (J := J) i'
        ((l.map (· i)).zip ((qs.map fun x => (x.1, x.2.1 i)).map (·.2)))[c.val]?) i' t : MPCₙ n ι S M J (List J)) >>= fun rs =>
          pure (rs.take (qs.map fun x => (x.1, x.2.1 i)).length)) s
      (fun a s' => (∃ l : List (ι → J), List.Forall₂ (fun x s => x.2.2 s) qs l ∧ a = fun i => l.map (· i)) ∧ s' = s) := by
  have hll := h.length_eq
  refine Specₙ.bind (Q₁ := fun a s' => s' = s ∧ ∃ w : Fin (n + 1) → ι → J,
      (∀ (c : Fin (n + 1)) (hc : c.val < qs.length), (qs[c.val]).2.2 (w c)) ∧
      a = fun i => (List.finRange (n + 1)).map fun c => w c i) ?_ ?_
  · refine Specₙ.join (P := fun c w => ∀ (hc : c.val < qs.length), (qs[c.val]).2.2 w) ?_ ?_
    · intro c
      by_cases hc : c.val < qs.length
      · have hcl : c.val < l.length := by omega
        have e : (fun i => closure (M := M) (J := J) i
            (((l.map (· i)).zip ((qs.map fun x => (x.1, x.2.1 i)).map (·.2)))[c.val]?)) =
            fun i => ((qs[c.val]).2.1 i i (l[c.val] i)).bind fun x => .ret x.1 := by
          funext i
          have : ((l.map (· i)).zip ((qs.map fun x => (x.1, x.2.1 i)).map (·.2)))[c.val]? =
              some (l[c.val] i, (qs[c.val]).2.1 i) := by
            simp [List.getElem?_eq_getElem, List.getElem?_zip_eq_some, hc, hcl]
          rw [this]; rfl
        rw [e]
        have h1 := List.Forall₂.get h hc hcl
        simp only [List.get_eq_getElem] at h1
        refine wpE_bind (h1.mono fun r hr => ?_)
        rcases hr with ⟨e, he, hb⟩ | ⟨v, t, hv, hQ⟩
        · obtain rfl : r = fun _ => .error (.err e) := funext he
          exact ⟨_, _, runs_fail (fun _ => Err.err e), .inl ⟨hb, fun _ => e, rfl⟩⟩
        · obtain rfl : r = fun i => .ok (v i, t i) := funext hv
          exact ⟨_, _, runs_ret v, .inr ⟨v, rfl, fun _ => hQ⟩⟩
      · have e : (fun i => closure (M := M) (J := J) i
            (((l.map (· i)).zip ((qs.map fun x => (x.1, x.2.1 i)).map (·.2)))[c.val]?)) = fun _ => .ret default := by
          funext i
          rw [List.getElem?_eq_none (by simp; omega)]
          rfl
        rw [e]
        exact ⟨_, _, runs_ret (fun _ => default), .inr ⟨fun _ => default, rfl, fun hc' => absurd hc' hc⟩⟩
    · intro w hw
      exact ⟨rfl, w, fun c hc => hw c hc, rfl⟩
  · rintro a s' ⟨rfl, w, hw, rfl⟩
    refine Specₙ.pure (v := fun i => List.take (qs.map fun x => (x.1, x.2.1 i)).length
      ((List.finRange (n + 1)).map fun c => w c i)) ?_
    refine ⟨⟨(List.finRange qs.length).map fun c i => w ⟨c.val, by omega⟩ i, ?_, ?_⟩, rfl⟩
    · rw [List.forall₂_iff_get]
      refine ⟨by simp, fun k hk hk' => ?_⟩
      simpa using hw ⟨k, by omega⟩ hk
    · funext i
      apply List.ext_getElem
      · simp; omega
      · intro k hk hk'
        simp

omit hS [DecidableEq ι] in
theorem forks_eq (qs : List (Nat × (ι → MPC ι S M Err J) × ((ι → J) → Prop))) (i : ι) :
    (qs.map fun x => (x.1, x.2.1 i)).mapM (fun p => MPCₙ.first (k := n) (J := J) (fork p.1)) =
      (qs.map (·.1)).mapM (fun x => MPCₙ.first (k := n) (J := J) (fork x)) := by
  simp only [List.mapM_map]
  rfl

theorem MSpec.join [Fintype ι] [Inhabited J] (qs : List (Nat × (ι → MPC ι S M Err J) × ((ι → J) → Prop)))
    (hlen : qs.length ≤ n + 1) (hpos : ∀ x ∈ qs, 0 < x.1) (h : ∀ x ∈ qs, CSpec Inv bad x.1 x.2.1 x.2.2) :
    MSpec Inv bad N (qs.map (·.1)).sum
      (fun i => joinWith (k := n) fork (qs.map fun x => (x.1, x.2.1 i)))
      (fun a => ∃ l : List (ι → J), List.Forall₂ (fun x s => x.2.2 s) qs l ∧ a = fun i => l.map (· i)) := by
  intro K st hst
  unfold joinWith
  simp only [forks_eq]
  refine Specₙ.bind (spec_forks hS _ (by simpa using hpos) K st hst) ?_
  rintro v s ⟨⟨l, rfl, hl⟩, hs⟩
  rw [List.forall₂_map_left_iff] at hl
  refine (specₙ_closures qs hlen l s ?_).mono fun _ _ h => ⟨h.1, h.2 ▸ hs⟩
  refine List.forall₂_iff_get.mpr ⟨hl.length_eq, fun c h1 h2 => ?_⟩
  have := List.Forall₂.get hl h1 h2
  refine (h _ (List.get_mem qs ⟨c, h1⟩) (N + 1) 0 _ (by simpa using this)).mono fun _ hr => allOrNone_mono hr id fun _ _ h => h.1

/-- The states that forks give, one after the other. -/
inductive Forks (fork : Nat → MPC ι S M Err S) : (ι → S) → List Nat → List (ι → S) → (ι → S) → Prop
  | nil {st} : Forks fork st [] [] st
  | cons {st st' st'' c x ns cs} : Spec (fun _ => fork x) st (fun s s' => s = c ∧ s' = st') → Forks fork st' ns cs st'' →
    Forks fork st (x :: ns) (c :: cs) st''

omit hS in
theorem spec_forks' {bad : Prop} {ns : List Nat} {cs : List (ι → S)} {st st' : ι → S} (h : Forks fork st ns cs st') :
    Specₙ (k := n) (J := J) bad (fun _ => ns.mapM fun x => MPCₙ.first (fork x)) st fun v s => v = (fun i => cs.map (· i)) ∧ s = st' := by
  induction h with
  | nil => exact Specₙ.pure ⟨rfl, rfl⟩
  | @cons st st' st'' c x ns cs h1 h2 ih =>
    simp only [List.mapM_cons]
    refine Specₙ.bind (Specₙ.first (h1.specE.mono fun _ hr => .inr hr)) ?_
    rintro _ _ ⟨rfl, rfl⟩
    refine Specₙ.bind ih ?_
    rintro _ _ ⟨rfl, rfl⟩
    rename_i c0 _ _
    refine Specₙ.pure (v := fun i => c0 i :: cs.map (· i)) ?_
    exact ⟨rfl, rfl⟩

omit hS in
/-- The closures with the states that the forks give. -/
theorem specₙ_joinWith [Fintype ι] [Inhabited J] {bad : Prop} (qs : List (Nat × (ι → MPC ι S M Err J) × ((ι → J) → Prop)))
    (hlen : qs.length ≤ n + 1) {cs : List (ι → S)} {st st' : ι → S} (hf : Forks fork st (qs.map (·.1)) cs st')
    (h : List.Forall₂ (fun x t => SpecE x.2.1 t (AllOrNone bad fun v _ => x.2.2 v)) qs cs) :
    Specₙ bad (fun i => joinWith (k := n) fork (qs.map fun x => (x.1, x.2.1 i))) st
      (fun a s => (∃ l : List (ι → J), List.Forall₂ (fun x s => x.2.2 s) qs l ∧ a = fun i => l.map (· i)) ∧ s = st') := by
  unfold joinWith
  simp only [forks_eq]
  refine Specₙ.bind (spec_forks' hf) ?_
  rintro _ _ ⟨rfl, rfl⟩
  exact specₙ_closures qs hlen cs _ h

end Rules

end Verif.Plonk
