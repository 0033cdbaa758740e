import Verif.Net.WP

/-!
# The monad of protocol code: one party, its network and its mutable protocol state

A Rust protocol function has the form `fn f<N: Network>(args, net: &N, state: &mut State) ->
eyre::Result<T>`.  `MPC ι S M E α` is such a function after its arguments are given: it knows the
party's own network id (`net.id()`), takes the state and returns a value and the new state.

Models: the calling convention of `/repo/mpc-core/src/protocols/rep3/arithmetic.rs` and
`/repo/mpc-core/src/protocols/shamir/arithmetic.rs`, and `/repo/mpc-net/src/lib.rs:34-63`.
-/

namespace Verif

/-- Errors: an `Err` with a message, or a panic. -/
inductive Err where
  | err (msg : String)
  | panic (msg : String)
  deriving DecidableEq, Repr

/-- Serialisation of values into messages. Stands for `CanonicalSerialize` / `CanonicalDeserialize`
of arkworks as used in `/repo/mpc-core/src/protocols/rep3/network.rs:15-213` (uncompressed, unchecked);
the round-trip law is the assumption made about arkworks. -/
class Codec (M α : Type) where
  enc : α → M
  dec : M → Option α
  dec_enc : ∀ x : α, dec (enc x) = some x

attribute [simp] Codec.dec_enc

theorem Codec.enc_injective {M α : Type} [Codec M α] {x y : α}
    (h : Codec.enc (M := M) x = Codec.enc y) : x = y := by
  have := congrArg (Codec.dec (α := α)) h
  simpa using this

/-- Every type is its own message type (used in examples). -/
@[reducible] def Codec.self (α : Type) : Codec α α := ⟨id, some, fun _ => rfl⟩

/-- Code of one party: own id, state, then a network program. -/
def MPC (ι S M E α : Type) : Type := ι → S → Prog ι M E (α × S)

namespace MPC

variable {ι S M E α β : Type}

/-- `Ok(a)`. -/
def pure (a : α) : MPC ι S M E α := fun _ s => .ret (a, s)

/-- `let x = p?; f(x)`. -/
def bind (p : MPC ι S M E α) (f : α → MPC ι S M E β) : MPC ι S M E β :=
  fun i s => (p i s).bind fun (a, s') => f a i s'

instance : Monad (MPC ι S M E) where
  pure := MPC.pure
  bind := MPC.bind

/-- `net.id()`. -/
def netId : MPC ι S M E ι := fun i s => .ret (i, s)
/-- Read the protocol state. -/
def get : MPC ι S M E S := fun _ s => .ret (s, s)
/-- Overwrite the protocol state. -/
def set (s : S) : MPC ι S M E Unit := fun _ _ => .ret ((), s)
/-- Run a state transformer on the protocol state (`&mut self` methods). -/
def modifyGet (f : S → α × S) : MPC ι S M E α := fun _ s => .ret (f s)
/-- Return an error. -/
def throw (e : E) : MPC ι S M E α := fun _ _ => .fail e

/-- `eyre::bail!(msg)` -/
def bail (msg : String) : MPC ι S M Err α := throw (.err msg)
/-- `panic!(msg)` and failed assertions -/
def panicWith (msg : String) : MPC ι S M Err α := throw (.panic msg)

/-- Serialise and send: `net.send(to, data)`. -/
def send [Codec M β] (dst : ι) (x : β) : MPC ι S M E Unit :=
  fun _ s => .send dst (Codec.enc x) (.ret ((), s))

/-- Receive and deserialise; malformed data is an error. -/
def recv [Codec M β] (frm : ι) : MPC ι S M Err β :=
  fun _ s => .recv frm fun m =>
    match Codec.dec m with
    | some x => .ret (x, s)
    | none => .fail (.err "deserialization failed")

theorem pure_def (a : α) : (Pure.pure a : MPC ι S M E α) = MPC.pure a := rfl
theorem bind_def (p : MPC ι S M E α) (f : α → MPC ι S M E β) : p >>= f = MPC.bind p f := rfl

theorem bind_assoc {γ : Type} (p : MPC ι S M E α) (f : α → MPC ι S M E β)
    (g : β → MPC ι S M E γ) : (p >>= f) >>= g = p >>= fun a => f a >>= g := by
  funext i s
  show ((p i s).bind _).bind _ = (p i s).bind _
  rw [Prog.bind_assoc]
  rfl

instance : LawfulMonad (MPC ι S M E) := LawfulMonad.mk'
  (id_map := fun x => by
    funext i s
    show (x i s).bind (fun (a, s') => .ret (a, s')) = x i s
    exact Prog.bind_ret _)
  (pure_bind := fun _ _ => rfl)
  (bind_assoc := fun x f g => bind_assoc x f g)

@[simp] theorem pure_apply (a : α) (i : ι) (s : S) :
    (Pure.pure a : MPC ι S M E α) i s = .ret (a, s) := rfl
@[simp] theorem bind_apply (p : MPC ι S M E α) (f : α → MPC ι S M E β) (i : ι) (s : S) :
    (p >>= f) i s = (p i s).bind fun x => f x.1 i x.2 := rfl
@[simp] theorem map_apply (p : MPC ι S M E α) (f : α → β) (i : ι) (s : S) :
    (f <$> p) i s = (p i s).bind fun x => .ret (f x.1, x.2) := by
  rw [map_eq_pure_bind]; rfl
@[simp] theorem netId_apply (i : ι) (s : S) : (netId : MPC ι S M E ι) i s = .ret (i, s) := rfl
@[simp] theorem get_apply (i : ι) (s : S) : (get : MPC ι S M E S) i s = .ret (s, s) := rfl
@[simp] theorem set_apply (s' : S) (i : ι) (s : S) :
    (set s' : MPC ι S M E Unit) i s = .ret ((), s') := rfl
@[simp] theorem modifyGet_apply (f : S → α × S) (i : ι) (s : S) :
    (modifyGet f : MPC ι S M E α) i s = .ret (f s) := rfl
@[simp] theorem throw_apply (e : E) (i : ι) (s : S) :
    (throw e : MPC ι S M E α) i s = .fail e := rfl
@[simp] theorem bail_apply (msg : String) (i : ι) (s : S) :
    (bail msg : MPC ι S M Err α) i s = .fail (.err msg) := rfl
@[simp] theorem panicWith_apply (msg : String) (i : ι) (s : S) :
    (panicWith msg : MPC ι S M Err α) i s = .fail (.panic msg) := rfl
@[simp] theorem send_apply [Codec M β] (dst : ι) (x : β) (i : ι) (s : S) :
    (send dst x : MPC ι S M E Unit) i s = .send dst (Codec.enc x) (.ret ((), s)) := rfl
theorem recv_apply [Codec M β] (frm : ι) (i : ι) (s : S) :
    (recv frm : MPC ι S M Err β) i s = .recv frm fun m =>
      match Codec.dec m with
      | some x => .ret (x, s)
      | none => .fail (.err "deserialization failed") := rfl

end MPC

section Spec

variable {ι S M E α β : Type} [DecidableEq ι]

/-- The parties run `p i` from states `st i`: in every execution, all parties return `Ok` and the
returned values and new states satisfy `Q`. This is the form used in property statements. -/
def Ensures (p : ι → MPC ι S M E α) (st : ι → S) (Q : (ι → α) → (ι → S) → Prop) : Prop :=
  Delivers (fun i => p i i (st i)) (fun r => Q (fun i => (r i).1) (fun i => (r i).2))

/-- Proof form of `Ensures`. -/
def Spec (p : ι → MPC ι S M E α) (st : ι → S) (Q : (ι → α) → (ι → S) → Prop) : Prop :=
  wp (fun i => p i i (st i)) (fun r => Q (fun i => (r i).1) (fun i => (r i).2))

theorem ensures_iff {p : ι → MPC ι S M E α} {st : ι → S} {Q : (ι → α) → (ι → S) → Prop} :
    Ensures p st Q ↔ Spec p st Q := delivers_iff

theorem Spec.ensures {p : ι → MPC ι S M E α} {st : ι → S} {Q : (ι → α) → (ι → S) → Prop}
    (h : Spec p st Q) : Ensures p st Q := ensures_iff.mpr h

theorem Ensures.mono {p : ι → MPC ι S M E α} {st : ι → S} {Q Q' : (ι → α) → (ι → S) → Prop}
    (h : Ensures p st Q) (hq : ∀ v s, Q v s → Q' v s) : Ensures p st Q' :=
  Delivers.mono h fun _ hv => hq _ _ hv

theorem Spec.mono {p : ι → MPC ι S M E α} {st : ι → S} {Q Q' : (ι → α) → (ι → S) → Prop}
    (h : Spec p st Q) (hq : ∀ v s, Q v s → Q' v s) : Spec p st Q' :=
  wp.mono h fun _ hv => hq _ _ hv

theorem Spec.pure {v : ι → α} {st : ι → S} {Q : (ι → α) → (ι → S) → Prop} (h : Q v st) :
    Spec (M := M) (E := E) (fun i => Pure.pure (v i)) st Q :=
  wp_ret (v := fun i => (v i, st i)) h

theorem Spec.bind' {p : ι → MPC ι S M E α} {k : ι → α → MPC ι S M E β} {st : ι → S}
    {Q : (ι → β) → (ι → S) → Prop}
    (h : Spec p st (fun v st' => Spec (fun i => k i (v i)) st' Q)) :
    Spec (fun i => p i >>= k i) st Q :=
  wp_bind h

/-- Sequencing rule. -/
theorem Spec.bind {p : ι → MPC ι S M E α} {k : ι → α → MPC ι S M E β} {st : ι → S}
    {Q : (ι → β) → (ι → S) → Prop} {Q₁ : (ι → α) → (ι → S) → Prop}
    (h : Spec p st Q₁) (h' : ∀ v st', Q₁ v st' → Spec (fun i => k i (v i)) st' Q) :
    Spec (fun i => p i >>= k i) st Q :=
  Spec.bind' (h.mono h')

/-- What a run after `p` delivers, from what the composition delivers. -/
theorem Spec.bind_inv {p : ι → MPC ι S M E α} {k : ι → α → MPC ι S M E β} {st : ι → S}
    {P : (ι → α) → (ι → S) → Prop} {Q : (ι → β) → (ι → S) → Prop} (hp : Spec p st P)
    (hk : ∀ v st', P v st' → Spec (fun i => k i (v i)) st' (fun _ _ => True))
    (h : Spec (fun i => p i >>= k i) st Q) :
    Spec p st (fun v st' => P v st' ∧ Spec (fun i => k i (v i)) st' Q) := by
  obtain ⟨v, l, hr, hP⟩ := hp
  obtain ⟨u, l', hr', -⟩ := hk _ _ hP
  obtain ⟨u', l'', hr'', hQ⟩ := h
  have hb : Runs (fun i => (p i >>= k i) i (st i)) (fun i => .ok (u i)) _ :=
    hr.bind_ok (k := fun i (x : α × S) => k i x.1 i x.2) hr'
  have e := hb.unique hr''
  have e' : u = u' := by
    funext i
    have := congrFun e.1 i
    simpa using this
  subst e'
  exact ⟨v, l, hr, hP, u, l', hr', hQ⟩

theorem Spec.map {p : ι → MPC ι S M E α} {f : ι → α → β} {st : ι → S}
    {Q : (ι → β) → (ι → S) → Prop}
    (h : Spec p st (fun v st' => Q (fun i => f i (v i)) st')) :
    Spec (fun i => f i <$> p i) st Q := by
  have : (fun i => f i <$> p i) = fun i => p i >>= fun x => Pure.pure (f i x) := by
    funext i; rw [map_eq_pure_bind]
  rw [this]
  exact Spec.bind h fun v st' hv => Spec.pure hv

theorem Spec.netId {st : ι → S} {Q : (ι → ι) → (ι → S) → Prop} (h : Q (fun i => i) st) :
    Spec (M := M) (E := E) (fun _ => MPC.netId) st Q :=
  wp_ret (v := fun i => (i, st i)) h

theorem Spec.get {st : ι → S} {Q : (ι → S) → (ι → S) → Prop} (h : Q st st) :
    Spec (M := M) (E := E) (fun _ => MPC.get) st Q :=
  wp_ret (v := fun i => (st i, st i)) h

theorem Spec.modifyGet {f : ι → S → α × S} {st : ι → S} {Q : (ι → α) → (ι → S) → Prop}
    (h : Q (fun i => (f i (st i)).1) (fun i => (f i (st i)).2)) :
    Spec (M := M) (E := E) (fun i => MPC.modifyGet (f i)) st Q :=
  wp_ret (v := fun i => f i (st i)) h

/-- Loop rule: the parties walk over the columns of one list of party-indexed values; `I` is kept by
every round and `P` relates the input and the output of each round. -/
theorem Spec.mapM {f : ι → α → MPC ι S M E β} {l : List (ι → α)} {st : ι → S}
    {I : (ι → S) → Prop} {P : (ι → α) → (ι → β) → Prop}
    (h : ∀ x ∈ l, ∀ st, I st → Spec (fun i => f i (x i)) st (fun r st' => P x r ∧ I st'))
    (hI : I st) :
    Spec (fun i => (l.map (· i)).mapM (f i)) st
      (fun r st' => ∃ rs : List (ι → β), r = (fun i => rs.map (· i)) ∧ List.Forall₂ P l rs ∧ I st') := by
  induction l generalizing st with
  | nil => exact Spec.pure ⟨[], rfl, .nil, hI⟩
  | cons x xs ih =>
    simp only [List.map_cons, List.mapM_cons]
    refine Spec.bind (h x (by simp) st hI) ?_
    rintro v st₁ ⟨hP, hI₁⟩
    refine Spec.bind (ih (fun y hy => h y (by simp [hy])) hI₁) ?_
    rintro w st₂ ⟨rs, rfl, hrs, hI₂⟩
    refine Spec.pure ⟨v :: rs, ?_, .cons hP hrs, hI₂⟩
    funext i; simp

/-- Error-aware form: results may be errors. -/
def SpecE (p : ι → MPC ι S M E α) (st : ι → S)
    (Q : (ι → Except E (α × S)) → Prop) : Prop :=
  wpE (fun i => p i i (st i)) Q

/-- Error-aware property form: every execution ends with all parties returned (`Ok` or `Err`) and
the outcomes satisfying `Q`. -/
def EnsuresE (p : ι → MPC ι S M E α) (st : ι → S)
    (Q : (ι → Except E (α × S)) → Prop) : Prop :=
  AllRuns (fun i => p i i (st i)) (fun r _ => Q r)

theorem ensuresE_iff {p : ι → MPC ι S M E α} {st : ι → S} {Q} :
    EnsuresE p st Q ↔ SpecE p st Q := by
  unfold EnsuresE SpecE wpE
  rw [allRuns_iff]

theorem SpecE.ensures {p : ι → MPC ι S M E α} {st : ι → S} {Q} (h : SpecE p st Q) :
    EnsuresE p st Q := ensuresE_iff.mpr h

theorem SpecE.mono {p : ι → MPC ι S M E α} {st : ι → S} {Q Q' : (ι → Except E (α × S)) → Prop}
    (h : SpecE p st Q) (hq : ∀ r, Q r → Q' r) : SpecE p st Q' := wpE.mono h hq

theorem SpecE.bind {p : ι → MPC ι S M E α} {k : ι → α → MPC ι S M E β} {st : ι → S}
    {Q : (ι → Except E (β × S)) → Prop} {Q₁ : (ι → α) → (ι → S) → Prop}
    (h : Spec p st Q₁) (h' : ∀ v st', Q₁ v st' → SpecE (fun i => k i (v i)) st' Q) :
    SpecE (fun i => p i >>= k i) st Q :=
  wpE_bind_ok (wp.mono h fun _ hv => h' _ _ hv)

/-- Sequencing when the first part may fail: either all parties fail alike or all succeed. -/
theorem SpecE.bindE {p : ι → MPC ι S M E α} {k : ι → α → MPC ι S M E β} {st : ι → S}
    {Q : (ι → Except E (β × S)) → Prop} {Q₁ : (ι → α) → (ι → S) → Prop} {Qe : (ι → E) → Prop}
    (h : SpecE p st (fun r => (∃ e : ι → E, (∀ i, r i = .error (e i)) ∧ Qe e) ∨
      ∃ v st', (∀ i, r i = .ok (v i, st' i)) ∧ Q₁ v st'))
    (h' : ∀ v st', Q₁ v st' → SpecE (fun i => k i (v i)) st' Q)
    (he : ∀ e, Qe e → Q (fun i => .error (e i))) :
    SpecE (fun i => p i >>= k i) st Q := by
  refine wpE_bind (wpE.mono h ?_)
  rintro r (⟨e, hr, hq⟩ | ⟨v, st', hr, hq⟩)
  · obtain rfl : r = fun i => .error (e i) := funext hr
    exact ⟨_, _, runs_fail e, he e hq⟩
  · obtain rfl : r = fun i => .ok (v i, st' i) := funext hr
    exact h' v st' hq

theorem Spec.specE {p : ι → MPC ι S M E α} {st : ι → S} {Q : (ι → α) → (ι → S) → Prop}
    (h : Spec p st Q) :
    SpecE p st (fun r => ∃ v st', (∀ i, r i = .ok (v i, st' i)) ∧ Q v st') := by
  obtain ⟨v, l, h, hQ⟩ := h
  exact ⟨_, l, h, fun i => (v i).1, fun i => (v i).2, fun _ => rfl, hQ⟩

theorem SpecE.throw {e : ι → E} {st : ι → S} {Q : (ι → Except E (α × S)) → Prop}
    (h : Q (fun i => .error (e i))) :
    SpecE (M := M) (fun i => MPC.throw (e i)) st Q :=
  ⟨_, _, runs_fail e, h⟩

theorem SpecE.bail {msg : String} {st : ι → S} {Q : (ι → Except Err (α × S)) → Prop}
    (h : Q (fun _ => .error (.err msg))) :
    SpecE (M := M) (fun _ => MPC.bail msg) st Q := SpecE.throw (E := Err) (e := fun _ => Err.err msg) h

theorem SpecE.panicWith {msg : String} {st : ι → S} {Q : (ι → Except Err (α × S)) → Prop}
    (h : Q (fun _ => .error (.panic msg))) :
    SpecE (M := M) (fun _ => MPC.panicWith msg) st Q := SpecE.throw (E := Err) (e := fun _ => Err.panic msg) h

theorem SpecE.pure {v : ι → α} {st : ι → S} {Q : (ι → Except E (α × S)) → Prop}
    (h : Q (fun i => .ok (v i, st i))) :
    SpecE (M := M) (fun i => Pure.pure (v i)) st Q :=
  ⟨_, _, runs_ret (fun i => (v i, st i)), h⟩

/-- What a call that can fail in a coordinated way delivers: either all parties return the same
error, and `bad` holds, or all return `Ok` with results and states satisfying `Q`. -/
def AllOrNone (bad : Prop) (Q : (ι → α) → (ι → S) → Prop) (r : ι → Except Err (α × S)) : Prop :=
  (∃ e, (∀ i, r i = .error (.err e)) ∧ bad) ∨ ∃ v st', (∀ i, r i = .ok (v i, st' i)) ∧ Q v st'

theorem SpecE.bindAll {p : ι → MPC ι S M Err α} {k : ι → α → MPC ι S M Err β} {st : ι → S}
    {Q : (ι → Except Err (β × S)) → Prop} {Q₁ : (ι → α) → (ι → S) → Prop} {bad : Prop}
    (h : SpecE p st (AllOrNone bad Q₁))
    (h' : ∀ v st', Q₁ v st' → SpecE (fun i => k i (v i)) st' Q)
    (he : ∀ e, bad → Q (fun _ => .error (.err e))) :
    SpecE (fun i => p i >>= k i) st Q := by
  refine SpecE.bindE (Q₁ := Q₁) (Qe := fun e => ∃ m, (∀ i, e i = .err m) ∧ bad) (h.mono ?_) h' ?_
  · rintro r (⟨e, he, hb⟩ | ⟨v, st', hv, h⟩)
    · exact Or.inl ⟨fun _ => .err e, he, e, fun _ => rfl, hb⟩
    · exact Or.inr ⟨v, st', hv, h⟩
  · rintro e ⟨m, hm, hb⟩
    have := he m hb
    simpa [hm] using this

end Spec

end Verif
