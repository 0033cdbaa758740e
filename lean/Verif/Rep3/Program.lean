import Verif.Rep3.ArithLemmas
import Verif.Spec.Program

/-!
# Programs on shares

Every instruction is one call of the library (`/repo/mpc-core/src/protocols/rep3/arithmetic.rs`); this
is how `/repo/co-circom/circom-mpc-vm/src/mpc/rep3.rs` and `/repo/co-noir/co-acvm/src/mpc/rep3.rs` use
it. Registers stand for the local variables of the caller; using a variable that does not exist is a
panic.
-/

namespace Verif

open PartyID
open MPC (bail panicWith)

namespace Rep3

variable {R M F : Type} [CommRing F] [Sample R F] [Codec M (List F)]

/-- Local variable of the caller. -/
def reg (rs : List (Share F)) (i : Nat) : Rep3M R M (Share F) :=
  match rs[i]? with
  | some s => pure s
  | none => panicWith "index out of bounds"

/-- One library call; citations at the functions called. -/
def _root_.Verif.Instr.run (rs : List (Share F)) : Instr F → Rep3M R M (List (Share F))
  | .const c => do
    let id ← stateId
    pure [promoteToTrivialShare id c]
  | .add i j => do
    let x ← reg rs i
    let y ← reg rs j
    pure [add x y]
  | .sub i j => do
    let x ← reg rs i
    let y ← reg rs j
    pure [sub x y]
  | .neg i => do
    let x ← reg rs i
    pure [neg x]
  | .addPublic i c => do
    let x ← reg rs i
    let id ← stateId
    pure [addPublic x c id]
  | .subSharedByPublic i c => do
    let x ← reg rs i
    let id ← stateId
    pure [subSharedByPublic x c id]
  | .subPublicByShared c i => do
    let x ← reg rs i
    let id ← stateId
    pure [subPublicByShared c x id]
  | .mulPublic i c => do
    let x ← reg rs i
    pure [mulPublic x c]
  | .mul i j => do
    let x ← reg rs i
    let y ← reg rs j
    let z ← mul x y
    pure [z]
  | .mulVec is js => do
    let xs ← is.mapM (reg rs)
    let ys ← js.mapM (reg rs)
    mulVec xs ys
  | .cmux c t f => do
    let c ← reg rs c
    let t ← reg rs t
    let f ← reg rs f
    let z ← cmux c t f
    pure [z]
  | .pow i e => do
    let x ← reg rs i
    let z ← powPublic x e
    pure [z]
  | .xor i j => do
    let x ← reg rs i
    let y ← reg rs j
    let z ← arithmeticXor x y
    pure [z]

/-- A program: the revealed values and the registers at the end. -/
def _root_.Verif.Program.run : Program F → List (Share F) → Rep3M R M (List F × List (Share F))
  | .done, rs => pure ([], rs)
  | .instr x k, rs => do
    let out ← x.run rs
    k.run (rs ++ out)
  | .reveal i k, rs => do
    let s ← reg rs i
    let v ← openShare s
    let (o, rs) ← (k v).run rs
    pure (v :: o, rs)

variable {ty : A2BType} {st : PartyID → Rep3State R}

omit [Sample R F] [Codec M (List F)] in
theorem spec_reg {regs : PartyID → List (Share F)} {vals : List F} (h : IsShares regs vals) {k : Nat}
    {v : F} (hv : vals[k]? = some v) :
    Spec (M := M) (fun i => reg (regs i) k) st (fun r st' => IsShare r v ∧ st' = st) := by
  obtain ⟨l, rfl, hl⟩ := h
  have hk : k < vals.length := by
    by_contra hc
    rw [List.getElem?_eq_none (by omega)] at hv
    cases hv
  have hkl : k < l.length := by rwa [hl.length_eq]
  have hs := hl.get hkl hk
  rw [List.getElem?_eq_getElem hk] at hv
  cases hv
  have e : (fun i : PartyID => (reg (l.map (· i)) k : Rep3M R M (Share F))) =
      fun i => pure (l[k] i) := by
    funext i
    simp [reg, List.getElem?_eq_getElem hkl]
  rw [e]
  exact Spec.pure ⟨by simpa using hs, rfl⟩

omit [Sample R F] [Codec M (List F)] in
theorem spec_regs {regs : PartyID → List (Share F)} {vals : List F} (h : IsShares regs vals)
    {ks : List Nat} {vs : List F} (hv : ks.mapM (vals[·]?) = some vs) :
    Spec (M := M) (fun i => ks.mapM (reg (regs i))) st (fun r st' => IsShares r vs ∧ st' = st) := by
  induction ks generalizing vs with
  | nil =>
    simp at hv
    subst hv
    exact Spec.pure ⟨isShares_nil, rfl⟩
  | cons k ks ih =>
    simp only [List.mapM_cons, Option.bind_eq_bind, Option.pure_def] at hv ⊢
    obtain ⟨v, h1, hv⟩ := Option.bind_eq_some_iff.mp hv
    obtain ⟨vs', h2, hv⟩ := Option.bind_eq_some_iff.mp hv
    cases hv
    refine Spec.bind (spec_reg h h1) ?_
    rintro s st' ⟨hs, rfl⟩
    refine Spec.bind (ih h2) ?_
    rintro ss st' ⟨hss, rfl⟩
    exact Spec.pure ⟨isShares_cons hs hss, rfl⟩

omit [Sample R F] [Codec M (List F)] in
theorem isShares_single {s : PartyID → Share F} {v : F} (h : IsShare s v) :
    IsShares (fun i => [s i]) [v] := isShares_cons h isShares_nil

omit [Sample R F] [Codec M (List F)] in
theorem isShares_append {s t : PartyID → List (Share F)} {v w : List F} (h : IsShares s v)
    (h' : IsShares t w) : IsShares (fun i => s i ++ t i) (v ++ w) := by
  obtain ⟨l, rfl, hl⟩ := h
  obtain ⟨l', rfl, hl'⟩ := h'
  exact ⟨l ++ l', by simp, List.rel_append hl hl'⟩

theorem spec_instr [DecidableEq F] {x : Instr F} {regs : PartyID → List (Share F)} {vals out : List F}
    (h : IsShares regs vals) (hx : x.plain vals = some out) (hst : Corr ty st) :
    Spec (M := M) (fun i => x.run (regs i)) st (fun r st' => IsShares r out ∧ Corr ty st') := by
  cases x with
  | const c =>
    cases hx
    refine Spec.bind (spec_stateId hst) ?_
    rintro _ _ ⟨rfl, rfl⟩
    exact Spec.pure ⟨isShares_single (IsShare.promote c), hst⟩
  | add i j =>
    simp only [Instr.plain, Option.bind_eq_bind, Option.pure_def] at hx
    obtain ⟨a, h1, hx⟩ := Option.bind_eq_some_iff.mp hx
    obtain ⟨b, h2, hx⟩ := Option.bind_eq_some_iff.mp hx
    cases hx
    refine Spec.bind (spec_reg h h1) ?_
    rintro s _ ⟨hs, rfl⟩
    refine Spec.bind (spec_reg h h2) ?_
    rintro t _ ⟨ht, rfl⟩
    exact Spec.pure ⟨isShares_single (hs.add ht), hst⟩
  | sub i j =>
    simp only [Instr.plain, Option.bind_eq_bind, Option.pure_def] at hx
    obtain ⟨a, h1, hx⟩ := Option.bind_eq_some_iff.mp hx
    obtain ⟨b, h2, hx⟩ := Option.bind_eq_some_iff.mp hx
    cases hx
    refine Spec.bind (spec_reg h h1) ?_
    rintro s _ ⟨hs, rfl⟩
    refine Spec.bind (spec_reg h h2) ?_
    rintro t _ ⟨ht, rfl⟩
    exact Spec.pure ⟨isShares_single (hs.sub ht), hst⟩
  | neg i =>
    simp only [Instr.plain, Option.bind_eq_bind, Option.pure_def] at hx
    obtain ⟨a, h1, hx⟩ := Option.bind_eq_some_iff.mp hx
    cases hx
    refine Spec.bind (spec_reg h h1) ?_
    rintro s _ ⟨hs, rfl⟩
    exact Spec.pure ⟨isShares_single hs.neg, hst⟩
  | addPublic i c =>
    simp only [Instr.plain, Option.bind_eq_bind, Option.pure_def] at hx
    obtain ⟨a, h1, hx⟩ := Option.bind_eq_some_iff.mp hx
    cases hx
    refine Spec.bind (spec_reg h h1) ?_
    rintro s _ ⟨hs, rfl⟩
    refine Spec.bind (spec_stateId hst) ?_
    rintro _ _ ⟨rfl, rfl⟩
    exact Spec.pure ⟨isShares_single (hs.addPublic c), hst⟩
  | subSharedByPublic i c =>
    simp only [Instr.plain, Option.bind_eq_bind, Option.pure_def] at hx
    obtain ⟨a, h1, hx⟩ := Option.bind_eq_some_iff.mp hx
    cases hx
    refine Spec.bind (spec_reg h h1) ?_
    rintro s _ ⟨hs, rfl⟩
    refine Spec.bind (spec_stateId hst) ?_
    rintro _ _ ⟨rfl, rfl⟩
    exact Spec.pure ⟨isShares_single (by rw [sub_eq_add_neg]; exact hs.addPublic (-c)), hst⟩
  | subPublicByShared c i =>
    simp only [Instr.plain, Option.bind_eq_bind, Option.pure_def] at hx
    obtain ⟨a, h1, hx⟩ := Option.bind_eq_some_iff.mp hx
    cases hx
    refine Spec.bind (spec_reg h h1) ?_
    rintro s _ ⟨hs, rfl⟩
    refine Spec.bind (spec_stateId hst) ?_
    rintro _ _ ⟨rfl, rfl⟩
    refine Spec.pure ⟨isShares_single ?_, hst⟩
    have := hs.neg.addPublic c
    rwa [neg_add_eq_sub] at this
  | mulPublic i c =>
    simp only [Instr.plain, Option.bind_eq_bind, Option.pure_def] at hx
    obtain ⟨a, h1, hx⟩ := Option.bind_eq_some_iff.mp hx
    cases hx
    refine Spec.bind (spec_reg h h1) ?_
    rintro s _ ⟨hs, rfl⟩
    exact Spec.pure ⟨isShares_single (hs.scale c), hst⟩
  | mul i j =>
    simp only [Instr.plain, Option.bind_eq_bind, Option.pure_def] at hx
    obtain ⟨a, h1, hx⟩ := Option.bind_eq_some_iff.mp hx
    obtain ⟨b, h2, hx⟩ := Option.bind_eq_some_iff.mp hx
    cases hx
    refine Spec.bind (spec_reg h h1) ?_
    rintro s _ ⟨hs, rfl⟩
    refine Spec.bind (spec_reg h h2) ?_
    rintro t _ ⟨ht, rfl⟩
    refine Spec.bind (spec_mul hs ht hst) ?_
    rintro z st' ⟨hz, hst'⟩
    exact Spec.pure ⟨isShares_single hz, hst'⟩
  | mulVec is js =>
    simp only [Instr.plain, Option.bind_eq_bind, Option.pure_def] at hx
    obtain ⟨a, h1, hx⟩ := Option.bind_eq_some_iff.mp hx
    obtain ⟨b, h2, hx⟩ := Option.bind_eq_some_iff.mp hx
    cases hx
    refine Spec.bind (spec_regs h h1) ?_
    rintro s _ ⟨hs, rfl⟩
    refine Spec.bind (spec_regs h h2) ?_
    rintro t _ ⟨ht, rfl⟩
    exact spec_mulVec hs ht hst
  | cmux c t f =>
    simp only [Instr.plain, Option.bind_eq_bind, Option.pure_def] at hx
    obtain ⟨c, h1, hx⟩ := Option.bind_eq_some_iff.mp hx
    obtain ⟨t, h2, hx⟩ := Option.bind_eq_some_iff.mp hx
    obtain ⟨f, h3, hx⟩ := Option.bind_eq_some_iff.mp hx
    refine Spec.bind (spec_reg h h1) ?_
    rintro c' _ ⟨hc, rfl⟩
    refine Spec.bind (spec_reg h h2) ?_
    rintro t' _ ⟨ht, rfl⟩
    refine Spec.bind (spec_reg h h3) ?_
    rintro f' _ ⟨hf, rfl⟩
    refine Spec.bind (spec_cmux hc ht hf hst) ?_
    rintro z st' ⟨hz, hst'⟩
    refine Spec.pure ⟨?_, hst'⟩
    split at hx
    · rename_i e
      cases hx
      subst e
      exact isShares_single (by convert hz using 1; ring)
    · split at hx
      · rename_i e
        cases hx
        subst e
        exact isShares_single (by convert hz using 1; ring)
      · cases hx
  | pow i e =>
    simp only [Instr.plain, Option.bind_eq_bind, Option.pure_def] at hx
    obtain ⟨a, h1, hx⟩ := Option.bind_eq_some_iff.mp hx
    cases hx
    refine Spec.bind (spec_reg h h1) ?_
    rintro s _ ⟨hs, rfl⟩
    refine Spec.bind (spec_powPublic e hs hst) ?_
    rintro z st' ⟨hz, hst'⟩
    exact Spec.pure ⟨isShares_single hz, hst'⟩
  | xor i j =>
    simp only [Instr.plain, Option.bind_eq_bind, Option.pure_def] at hx
    obtain ⟨a, h1, hx⟩ := Option.bind_eq_some_iff.mp hx
    obtain ⟨b, h2, hx⟩ := Option.bind_eq_some_iff.mp hx
    refine Spec.bind (spec_reg h h1) ?_
    rintro s _ ⟨hs, rfl⟩
    refine Spec.bind (spec_reg h h2) ?_
    rintro t _ ⟨ht, rfl⟩
    refine Spec.bind (spec_arithmeticXor hs ht hst) ?_
    rintro z st' ⟨hz, hst'⟩
    refine Spec.pure ⟨?_, hst'⟩
    split at hx
    · rename_i hb
      cases hx
      refine isShares_single ?_
      convert hz using 1
      rcases hb with ⟨rfl | rfl, rfl | rfl⟩
      · simp
      · split
        · rename_i e; rw [← e]; simp
        · simp
      · split
        · rename_i e; rw [e]; simp
        · simp
      · simp; ring
    · cases hx

/-- Running a program on shares of the inputs reveals to every party exactly the values the plain
program reveals, and leaves shares of exactly the plain registers. -/
theorem spec_program [DecidableEq F] {p : Program F} {regs : PartyID → List (Share F)}
    {vals out fin : List F} (h : IsShares regs vals) (hp : p.plain vals = some (out, fin))
    (hst : Corr ty st) :
    Spec (M := M) (fun i => p.run (regs i)) st (fun r st' =>
      (∀ i, (r i).1 = out) ∧ IsShares (fun i => (r i).2) fin ∧ Corr ty st') := by
  induction p generalizing regs vals out fin st with
  | done =>
    cases hp
    exact Spec.pure ⟨fun _ => rfl, h, hst⟩
  | instr x k ih =>
    simp only [Program.plain, Option.bind_eq_bind] at hp
    obtain ⟨o, h1, hp⟩ := Option.bind_eq_some_iff.mp hp
    refine Spec.bind (spec_instr h h1 hst) ?_
    rintro s st' ⟨hs, hst'⟩
    exact ih (isShares_append h hs) hp hst'
  | reveal i k ih =>
    simp only [Program.plain, Option.bind_eq_bind, Option.pure_def] at hp
    obtain ⟨v, h1, hp⟩ := Option.bind_eq_some_iff.mp hp
    obtain ⟨⟨o, rs⟩, h2, hp⟩ := Option.bind_eq_some_iff.mp hp
    cases hp
    refine Spec.bind (spec_reg h h1) ?_
    rintro s _ ⟨hs, rfl⟩
    refine Spec.bind (spec_open hs) ?_
    rintro _ _ ⟨rfl, rfl⟩
    refine Spec.bind (ih v h h2 hst) ?_
    rintro r st' ⟨hr, hr', hst'⟩
    exact Spec.pure ⟨fun i => by simp [hr i], hr', hst'⟩

end Rep3

end Verif
