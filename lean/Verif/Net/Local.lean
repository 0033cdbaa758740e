import Verif.Net.MPC

/-!
# Proof rules for protocols among any number of parties

`LSteps p inp out q`: one party alone can go from program `p` to program `q` by receiving exactly the
messages `inp` (in this order) and sending the messages `out`.  A *stage* lets every party go on as
far as messages already in flight allow; protocols are sequences of stages.
-/

namespace Verif

open Config

section Local

variable {ι M E α β : Type}

/-- One party's own progress. -/
inductive LSteps : Prog ι M E α → List (ι × M) → List (ι × M) → Prog ι M E α → Prop where
  | refl (p) : LSteps p [] [] p
  | send {t m k inp out q} : LSteps k inp out q → LSteps (.send t m k) inp ((t, m) :: out) q
  | recv {s m k inp out q} : LSteps (k m) inp out q → LSteps (.recv s k) ((s, m) :: inp) out q

theorem LSteps.trans {p q r : Prog ι M E α} {i₁ o₁ i₂ o₂ : List (ι × M)}
    (h₁ : LSteps p i₁ o₁ q) (h₂ : LSteps q i₂ o₂ r) : LSteps p (i₁ ++ i₂) (o₁ ++ o₂) r := by
  induction h₁ with
  | refl => simpa using h₂
  | send _ ih => exact .send (ih h₂)
  | recv _ ih => exact .recv (ih h₂)

theorem LSteps.bind {p q : Prog ι M E α} {i o : List (ι × M)} (h : LSteps p i o q)
    (k : α → Prog ι M E β) : LSteps (p.bind k) i o (q.bind k) := by
  induction h with
  | refl => exact .refl _
  | send _ ih => exact .send ih
  | recv _ ih => exact .recv ih

/-- Run the first part to its end, then go on. -/
theorem LSteps.bindRet {p : Prog ι M E α} {a : α} {i₁ o₁ i₂ o₂ : List (ι × M)}
    {k : α → Prog ι M E β} {q : Prog ι M E β}
    (h₁ : LSteps p i₁ o₁ (.ret a)) (h₂ : LSteps (k a) i₂ o₂ q) :
    LSteps (p.bind k) (i₁ ++ i₂) (o₁ ++ o₂) q :=
  (h₁.bind k).trans h₂

variable [DecidableEq ι]

@[simp] theorem msgsTo_nil (j : ι) : msgsTo (M := M) j [] = [] := rfl

@[simp] theorem msgsTo_append (j : ι) (l l' : List (ι × M)) :
    msgsTo j (l ++ l') = msgsTo j l ++ msgsTo j l' := by
  induction l with
  | nil => rfl
  | cons x xs ih => obtain ⟨t, m⟩ := x; simp only [List.cons_append, msgsTo]; split <;> simp [ih]

/-- At most one message per party and one for each listed party. -/
theorem msgsTo_map_nodup {κ : Type} (f : κ → ι) (g : κ → M) (l : List κ) (hn : (l.map f).Nodup)
    (j : ι) : msgsTo j (l.map fun k => (f k, g k)) =
      match l.find? (fun k => f k = j) with
      | some k => [g k]
      | none => [] := by
  induction l with
  | nil => rfl
  | cons x xs ih =>
    have h := List.nodup_cons.mp (by simpa using hn : (f x :: xs.map f).Nodup)
    simp only [List.map_cons, msgsTo, List.find?_cons]
    by_cases hx : f x = j
    · have : msgsTo j (xs.map fun k => (f k, g k)) = [] := by
        rw [ih h.2]
        have hf : xs.find? (fun k => f k = j) = none := by
          rw [List.find?_eq_none]
          intro k hk
          simp only [decide_eq_true_eq]
          rintro rfl
          exact h.1 (by rw [hx]; exact List.mem_map.mpr ⟨k, hk, rfl⟩)
        rw [hf]
      simp [hx, this]
    · simp [hx, ih h.2]

/-- The messages to `j` of a list with distinct destinations, when the message depends only on the
destination. -/
theorem msgsTo_map_id (g : ι → M) (l : List ι) (hn : l.Nodup) (j : ι) :
    msgsTo j (l.map fun k => (k, g k)) = if j ∈ l then [g j] else [] := by
  induction l with
  | nil => rfl
  | cons x xs ih =>
    have h := List.nodup_cons.mp hn
    simp only [List.map_cons, msgsTo, ih h.2]
    by_cases hx : x = j
    · subst hx; simp [h.1]
    · simp [hx, Ne.symm hx]

theorem steps_local {i : ι} {p q : Prog ι M E α} {inp out : List (ι × M)} (h : LSteps p inp out q) :
    ∀ {c : Config ι M E α} {rest : ι → List M}, c.progs i = p →
    (∀ s, c.chan s i = msgsTo s inp ++ rest s) → i ∉ inp.map Prod.fst →
    ∃ n, Steps n c
      { progs := fun j => if j = i then q else c.progs j
        chan := fun a b => (if b = i then (rest a) else c.chan a b) ++
          (if a = i then msgsTo b out else [])
        log := fun j => if j = i then c.log j ++ inp else c.log j } := by
  induction h with
  | refl p =>
    intro c rest hp hc _
    refine ⟨0, ?_⟩
    have : c = { progs := fun j => if j = i then p else c.progs j
                 chan := fun a b => (if b = i then (rest a) else c.chan a b) ++
                  (if a = i then msgsTo b [] else [])
                 log := fun j => if j = i then c.log j ++ [] else c.log j } := by
      ext a b
      · simp only; split
        · next h' => subst h'; simpa using hp
        · rfl
      · simp only [msgsTo_nil, ite_self, List.append_nil]
        split
        · next h' => subst h'; rw [hc a]; simp
        · rfl
      · simp
    nth_rewrite 1 [this]
    exact .refl _
  | @send t m k inp out q _ ih =>
    intro c rest hp hc hi
    have hs := step?_send (c := c) (i := i) hp
    obtain ⟨n, hn⟩ := ih (c := (c.setChan i t (c.chan i t ++ [m])).setProg i k)
      (rest := fun s => rest s ++ (if s = i ∧ t = i then [m] else [])) (by simp) (by
        intro s
        simp only [setProg_chan, setChan_chan]
        by_cases h : s = i ∧ i = t
        · obtain ⟨rfl, rfl⟩ := h
          simp [hc]
        · rw [if_neg h, hc s, if_neg (by tauto)]; simp) hi
    refine ⟨n + 1, .head ⟨i, hs⟩ ?_⟩
    convert hn using 1
    ext a b
    · simp
      grind
    · simp only [setProg_chan, setChan_chan, msgsTo]
      by_cases h1 : a = i <;> by_cases h2 : t = b <;> by_cases h3 : b = i <;> simp_all [eq_comm]
    · rfl
  | @recv s m k inp out q _ ih =>
    intro c rest hp hc hi
    have hsi : s ≠ i := by
      rintro rfl; simp at hi
    have hcs : c.chan s i = m :: (msgsTo s inp ++ rest s) := by
      rw [hc s]; simp [msgsTo]
    have hs := step?_recv (c := c) (i := i) hp hcs
    obtain ⟨n, hn⟩ := ih (c := ((c.setChan s i (msgsTo s inp ++ rest s)).addLog i (s, m)).setProg i (k m))
      (rest := rest) (by simp) (by
        intro s'
        simp only [setProg_chan, addLog_chan, setChan_chan]
        by_cases h : s' = s
        · subst h; simp
        · have := hc s'
          simp only [msgsTo, if_neg (Ne.symm h)] at this
          simp [h, this]) (by simp at hi ⊢; exact fun x => hi.2 x)
    refine ⟨n + 1, .head ⟨i, hs⟩ ?_⟩
    convert hn using 1
    ext a b
    · simp
      grind
    · simp only [setProg_chan, addLog_chan, setChan_chan]
      by_cases h1 : a = i <;> by_cases h2 : a = s <;> by_cases h3 : b = i <;> simp_all [eq_comm]
    · simp; grind

/-- A stage: every party goes on alone, receiving only messages that were in flight at the start of
the stage. -/
theorem steps_stage [Fintype ι] {p q : ι → Prog ι M E α} {inp out : ι → List (ι × M)}
    {ch rest : ι → ι → List M} {log : ι → List (ι × M)}
    (h : ∀ i, LSteps (p i) (inp i) (out i) (q i))
    (hc : ∀ a b, ch a b = msgsTo a (inp b) ++ rest a b)
    (hi : ∀ i, i ∉ (inp i).map Prod.fst) :
    ∃ n, Steps n ⟨p, ch, log⟩
      ⟨q, fun a b => rest a b ++ msgsTo b (out a), fun i => log i ++ inp i⟩ := by
  have key : ∀ ps : List ι, ps.Nodup → ∃ n, Steps n ⟨p, ch, log⟩
      { progs := fun i => if i ∈ ps then q i else p i
        chan := fun a b => (if b ∈ ps then rest a b else ch a b) ++
          (if a ∈ ps then msgsTo b (out a) else [])
        log := fun i => if i ∈ ps then log i ++ inp i else log i } := by
    intro ps
    induction ps with
    | nil => intro _; exact ⟨0, by simpa using Steps.refl _⟩
    | cons x xs ih =>
      intro hnd
      obtain ⟨n, hn'⟩ := ih (List.nodup_cons.mp hnd).2
      have hx : x ∉ xs := (List.nodup_cons.mp hnd).1
      obtain ⟨m, hm⟩ := steps_local (h x)
        (c := { progs := fun i => if i ∈ xs then q i else p i
                chan := fun a b => (if b ∈ xs then rest a b else ch a b) ++
                  (if a ∈ xs then msgsTo b (out a) else [])
                log := fun i => if i ∈ xs then log i ++ inp i else log i })
        (rest := fun s => rest s x ++ (if s ∈ xs then msgsTo x (out s) else []))
        (by simp [hx]) (by intro s; simp [hx, hc]) (hi x)
      refine ⟨n + m, hn'.trans ?_⟩
      convert hm using 1
      ext a b
      · simp; grind
      · simp only [List.mem_cons]
        by_cases h1 : a = x <;> by_cases h2 : b = x <;> by_cases h3 : a ∈ xs <;>
          by_cases h4 : b ∈ xs <;> simp_all
      · simp; grind
  obtain ⟨n, h⟩ := key Finset.univ.toList (Finset.nodup_toList _)
  simp only [Finset.mem_toList, Finset.mem_univ, if_true] at h
  exact ⟨n, h⟩

end Local

section Spec

variable {ι S M E α β : Type} [DecidableEq ι] [Fintype ι]

/-- One round: everybody sends, then everybody receives. -/
theorem Runs.round {p : ι → MPC ι S M E α} {st : ι → S}
    {q : ι → Prog ι M E (α × S)} {inp out : ι → List (ι × M)} {v : ι → α} {st' : ι → S}
    (h₁ : ∀ i, LSteps (p i i (st i)) [] (out i) (q i))
    (h₂ : ∀ i, LSteps (q i) (inp i) [] (.ret (v i, st' i)))
    (hm : ∀ a b, msgsTo b (out a) = msgsTo a (inp b))
    (hi : ∀ i, i ∉ (inp i).map Prod.fst) :
    Runs (fun i => p i i (st i)) (fun i => .ok (v i, st' i)) inp := by
  obtain ⟨n₁, s₁⟩ := steps_stage (ch := fun _ _ => []) (rest := fun _ _ => []) (log := fun _ => [])
    h₁ (by simp) (by simp)
  obtain ⟨n₂, s₂⟩ := steps_stage (ch := fun a b => msgsTo b (out a)) (rest := fun _ _ => [])
    (log := fun _ => []) h₂ (by simp [hm]) hi
  simp only [List.nil_append, msgsTo_nil, List.append_nil] at s₁ s₂
  exact ⟨n₁ + n₂, s₁.trans s₂⟩

theorem Spec.round {p : ι → MPC ι S M E α} {st : ι → S} {Q : (ι → α) → (ι → S) → Prop}
    {q : ι → Prog ι M E (α × S)} {inp out : ι → List (ι × M)} {v : ι → α} {st' : ι → S}
    (h₁ : ∀ i, LSteps (p i i (st i)) [] (out i) (q i))
    (h₂ : ∀ i, LSteps (q i) (inp i) [] (.ret (v i, st' i)))
    (hm : ∀ a b, msgsTo b (out a) = msgsTo a (inp b))
    (hi : ∀ i, i ∉ (inp i).map Prod.fst) (hQ : Q v st') : Spec p st Q :=
  ⟨fun i => (v i, st' i), inp, Runs.round h₁ h₂ hm hi, hQ⟩

/-- Two rounds in which the second sender needs the messages of the first: everybody may send, then
everybody may receive and send, then everybody may receive. -/
theorem Spec.round₂ {p : ι → MPC ι S M E α} {st : ι → S} {Q : (ι → α) → (ι → S) → Prop}
    {q₁ q₂ : ι → Prog ι M E (α × S)} {out₁ inp₂ out₂ inp₃ : ι → List (ι × M)} {v : ι → α}
    {st' : ι → S}
    (h₁ : ∀ i, LSteps (p i i (st i)) [] (out₁ i) (q₁ i))
    (h₂ : ∀ i, LSteps (q₁ i) (inp₂ i) (out₂ i) (q₂ i))
    (h₃ : ∀ i, LSteps (q₂ i) (inp₃ i) [] (.ret (v i, st' i)))
    (hm₁ : ∀ a b, msgsTo b (out₁ a) = msgsTo a (inp₂ b))
    (hm₂ : ∀ a b, msgsTo b (out₂ a) = msgsTo a (inp₃ b))
    (hi₂ : ∀ i, i ∉ (inp₂ i).map Prod.fst)
    (hi₃ : ∀ i, i ∉ (inp₃ i).map Prod.fst) (hQ : Q v st') : Spec p st Q := by
  obtain ⟨n₁, s₁⟩ := steps_stage (ch := fun _ _ => []) (rest := fun _ _ => []) (log := fun _ => [])
    h₁ (by simp) (by simp)
  obtain ⟨n₂, s₂⟩ := steps_stage (ch := fun a b => msgsTo b (out₁ a)) (rest := fun _ _ => [])
    (log := fun _ => []) h₂ (by simp [hm₁]) hi₂
  obtain ⟨n₃, s₃⟩ := steps_stage (ch := fun a b => msgsTo b (out₂ a)) (rest := fun _ _ => [])
    (log := inp₂) h₃ (by simp [hm₂]) hi₃
  simp only [List.nil_append, msgsTo_nil, List.append_nil] at s₁ s₂ s₃
  exact ⟨fun i => (v i, st' i), _, ⟨_, (s₁.trans s₂).trans s₃⟩, hQ⟩

end Spec

section MPC

variable {ι S M E α β κ : Type}

/-- A party's own progress through `p`, to its end. -/
def LRun (p : MPC ι S M E α) (i : ι) (s : S) (inp out : List (ι × M)) (a : α) (s' : S) : Prop :=
  LSteps (p i s) inp out (.ret (a, s'))

theorem LRun.pure (a : α) (i : ι) (s : S) :
    LRun (M := M) (E := E) (Pure.pure a) i s [] [] a s := .refl _

theorem LRun.get (i : ι) (s : S) : LRun (M := M) (E := E) MPC.get i s [] [] s s := .refl _

theorem LRun.netId (i : ι) (s : S) : LRun (M := M) (E := E) MPC.netId i s [] [] i s := .refl _

theorem LRun.modifyGet (f : S → α × S) (i : ι) (s : S) :
    LRun (M := M) (E := E) (MPC.modifyGet f) i s [] [] (f s).1 (f s).2 := .refl _

theorem LRun.bind {p : MPC ι S M E α} {k : α → MPC ι S M E β} {i : ι} {s s₁ s₂ : S}
    {i₁ o₁ i₂ o₂ : List (ι × M)} {a : α} {b : β}
    (h₁ : LRun p i s i₁ o₁ a s₁) (h₂ : LRun (k a) i s₁ i₂ o₂ b s₂) :
    LRun (p >>= k) i s (i₁ ++ i₂) (o₁ ++ o₂) b s₂ :=
  LSteps.bindRet h₁ h₂

theorem LRun.map {p : MPC ι S M E α} {f : α → β} {i : ι} {s s₁ : S}
    {i₁ o₁ : List (ι × M)} {a : α} (h₁ : LRun p i s i₁ o₁ a s₁) :
    LRun (f <$> p) i s i₁ o₁ (f a) s₁ := by
  have := LRun.bind (k := fun x => Pure.pure (f x)) h₁ (LRun.pure (M := M) (E := E) (f a) i s₁)
  rw [map_eq_pure_bind]
  simpa using this

/-- Go on from the middle of a sequence. -/
theorem LRun.then {p : MPC ι S M E α} {k : α → MPC ι S M E β} {i : ι} {s s₁ : S}
    {i₁ o₁ i₂ o₂ : List (ι × M)} {a : α} {q : Prog ι M E (β × S)}
    (h₁ : LRun p i s i₁ o₁ a s₁) (h₂ : LSteps (k a i s₁) i₂ o₂ q) :
    LSteps ((p >>= k) i s) (i₁ ++ i₂) (o₁ ++ o₂) q :=
  LSteps.bindRet h₁ h₂

theorem LRun.send [Codec M α] (dst : ι) (x : α) (i : ι) (s : S) :
    LRun (E := E) (MPC.send dst x) i s [] [(dst, Codec.enc (M := M) x)] () s :=
  LSteps.send (LSteps.refl _)

theorem LRun.recv [Codec M α] (frm : ι) (x : α) (i : ι) (s : S) :
    LRun (MPC.recv frm) i s [(frm, Codec.enc (M := M) x)] [] x s := by
  refine LSteps.recv ?_
  simp only [Codec.dec_enc]
  exact LSteps.refl _

@[simp] theorem flatMap_const_nil (l : List κ) : l.flatMap (fun _ => ([] : List α)) = [] := by
  induction l with
  | nil => rfl
  | cons x xs ih => simp [ih]

/-- A loop over a list. -/
theorem LRun.mapM {f : κ → MPC ι S M E α} {g : κ → α} {i : ι} {s : S}
    {inp out : κ → List (ι × M)} {l : List κ}
    (h : ∀ k ∈ l, LRun (f k) i s (inp k) (out k) (g k) s) :
    LRun (l.mapM f) i s (l.flatMap inp) (l.flatMap out) (l.map g) s := by
  induction l with
  | nil => exact LRun.pure _ _ _
  | cons x xs ih =>
    simp only [List.mapM_cons, List.flatMap_cons, List.map_cons]
    refine LRun.bind (h x (by simp)) ?_
    have := LRun.bind (k := fun ys => Pure.pure (g x :: ys)) (ih fun k hk => h k (by simp [hk]))
      (LRun.pure (M := M) (E := E) (g x :: xs.map g) i s)
    simpa using this

theorem LRun.forM {f : κ → MPC ι S M E PUnit} {i : ι} {s : S}
    {inp out : κ → List (ι × M)} {l : List κ}
    (h : ∀ k ∈ l, LRun (f k) i s (inp k) (out k) () s) :
    LRun (l.forM f) i s (l.flatMap inp) (l.flatMap out) () s := by
  induction l with
  | nil => exact LRun.pure _ _ _
  | cons x xs ih =>
    simp only [List.forM_eq_forM, List.forM_cons, List.flatMap_cons] at ih ⊢
    exact LRun.bind (h x (by simp)) (ih fun k hk => h k (by simp [hk]))

theorem LRun.foldlM {σ : Type} {f : σ → κ → MPC ι S M E σ} {g : σ → κ → σ} {i : ι} {s : S}
    {inp out : κ → List (ι × M)} {l : List κ} {P : σ → Prop} {a : σ} (ha : P a)
    (h : ∀ k ∈ l, ∀ a, P a → LRun (f a k) i s (inp k) (out k) (g a k) s ∧ P (g a k)) :
    LRun (l.foldlM f a) i s (l.flatMap inp) (l.flatMap out) (l.foldl g a) s := by
  induction l generalizing a with
  | nil => exact LRun.pure _ _ _
  | cons x xs ih =>
    simp only [List.foldlM_cons, List.flatMap_cons, List.foldl_cons]
    obtain ⟨h1, h2⟩ := h x (by simp) a ha
    exact LRun.bind h1 (ih h2 fun k hk => h k (by simp [hk]))

end MPC

end Verif
