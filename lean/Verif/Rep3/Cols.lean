import Verif.Rep3.ArithLemmas

/-!
# Vectors held by all parties, and loop rules
-/

namespace Verif

variable {ι α β γ α' β' γ' : Type}

/-- The parties hold vectors of equal length; position by position, what they hold represents
`vs` in the sense of `P`.  `IsShares` and `IsBShares` are instances. -/
def Cols (P : (ι → α) → α' → Prop) (s : ι → List α) (vs : List α') : Prop :=
  ∃ l : List (ι → α), (s = fun i => l.map (· i)) ∧ List.Forall₂ P l vs

namespace Cols

variable {P : (ι → α) → α' → Prop} {Q : (ι → β) → β' → Prop} {W : (ι → γ) → γ' → Prop}
  {s : ι → List α} {t : ι → List β} {vs : List α'} {us : List β'}

theorem nil : Cols P (fun _ => []) [] := ⟨[], rfl, .nil⟩

theorem cons {x : ι → α} {v : α'} (h : P x v) (hs : Cols P s vs) :
    Cols P (fun i => x i :: s i) (v :: vs) := by
  obtain ⟨l, rfl, hl⟩ := hs
  exact ⟨x :: l, rfl, .cons h hl⟩

theorem length (h : Cols P s vs) (i : ι) : (s i).length = vs.length := by
  obtain ⟨l, rfl, hl⟩ := h
  simp [hl.length_eq]

theorem append {s' : ι → List α} {vs' : List α'} (h : Cols P s vs) (h' : Cols P s' vs') :
    Cols P (fun i => s i ++ s' i) (vs ++ vs') := by
  obtain ⟨l, rfl, hl⟩ := h
  obtain ⟨l', rfl, hl'⟩ := h'
  refine ⟨l ++ l', ?_, List.rel_append hl hl'⟩
  funext i; simp

theorem take (h : Cols P s vs) (n : Nat) : Cols P (fun i => (s i).take n) (vs.take n) := by
  obtain ⟨l, rfl, hl⟩ := h
  refine ⟨l.take n, ?_, List.forall₂_take n hl⟩
  funext i; simp

theorem drop (h : Cols P s vs) (n : Nat) : Cols P (fun i => (s i).drop n) (vs.drop n) := by
  obtain ⟨l, rfl, hl⟩ := h
  refine ⟨l.drop n, ?_, List.forall₂_drop n hl⟩
  funext i; simp

theorem reverse (h : Cols P s vs) : Cols P (fun i => (s i).reverse) vs.reverse := by
  obtain ⟨l, rfl, hl⟩ := h
  refine ⟨l.reverse, ?_, List.rel_reverse hl⟩
  funext i; simp

theorem map {f : ι → α → β} {g : α' → β'} (h : Cols P s vs)
    (hf : ∀ x v, P x v → Q (fun i => f i (x i)) (g v)) :
    Cols Q (fun i => (s i).map (f i)) (vs.map g) := by
  obtain ⟨l, rfl, hl⟩ := h
  refine ⟨l.map fun x i => f i (x i), ?_, ?_⟩
  · funext i; simp
  · rw [List.forall₂_map_left_iff, List.forall₂_map_right_iff]
    exact hl.imp hf

theorem zipWith {f : ι → α → β → γ} {g : α' → β' → γ'} (h : Cols P s vs) (h' : Cols Q t us)
    (hf : ∀ x v y u, P x v → Q y u → W (fun i => f i (x i) (y i)) (g v u)) :
    Cols W (fun i => List.zipWith (f i) (s i) (t i)) (List.zipWith g vs us) := by
  obtain ⟨l, rfl, hl⟩ := h
  obtain ⟨l', rfl, hl'⟩ := h'
  refine ⟨List.zipWith (fun x y i => f i (x i) (y i)) l l', ?_, ?_⟩
  · funext i
    exact zipWith_columns f l l' i
  · induction hl generalizing l' us with
    | nil => simp
    | cons h _ ih =>
      cases hl' with
      | nil => simp
      | cons h' hr => exact .cons (hf _ _ _ _ h h') (ih _ hr)

theorem zip (h : Cols P s vs) (h' : Cols Q t us) :
    Cols (fun (x : ι → α × β) (v : α' × β') => P (fun i => (x i).1) v.1 ∧ Q (fun i => (x i).2) v.2)
      (fun i => (s i).zip (t i)) (vs.zip us) := by
  have := Cols.zipWith (f := fun _ => Prod.mk) (g := Prod.mk)
    (W := fun (x : ι → α × β) (v : α' × β') => P (fun i => (x i).1) v.1 ∧ Q (fun i => (x i).2) v.2)
    h h' (fun x v y u h h' => ⟨h, h'⟩)
  simpa [List.zip] using this

theorem mono {P' : (ι → α) → α' → Prop} (h : Cols P s vs) (hp : ∀ x v, P x v → P' x v) :
    Cols P' s vs := by
  obtain ⟨l, rfl, hl⟩ := h
  exact ⟨l, rfl, hl.imp hp⟩

/-- If the relation is membership in the same public value, all parties hold the same list. -/
theorem const {ws : List α} (h : Cols (fun (x : ι → α) (v : α) => x = fun _ => v) s ws) :
    s = fun _ => ws := by
  obtain ⟨l, rfl, hl⟩ := h
  funext i
  induction hl with
  | nil => rfl
  | cons h _ ih => simp [h, ih]

theorem replicate (n : Nat) {x : ι → α} {v : α'} (h : P x v) :
    Cols P (fun i => List.replicate n (x i)) (List.replicate n v) := by
  induction n with
  | zero => exact Cols.nil
  | succ n ih => simpa [List.replicate_succ] using Cols.cons h ih

/-- Column-wise description by indices. -/
theorem of_get (n : Nat) (hs : ∀ i, (s i).length = n) (hv : vs.length = n)
    (h : ∀ k (hk : k < n), P (fun i => (s i)[k]'(by rw [hs]; exact hk)) (vs[k]'(by rw [hv]; exact hk))) :
    Cols P s vs := by
  refine ⟨List.ofFn fun k : Fin n => fun i => (s i)[k.1]'(by rw [hs]; exact k.2), ?_, ?_⟩
  · funext i
    apply List.ext_getElem
    · simp [hs]
    · intro k h1 h2
      simp
  · rw [List.forall₂_iff_get]
    refine ⟨by simp [hv], ?_⟩
    intro k h1 h2
    simpa using h k (by simpa using h1)

theorem get (h : Cols P s vs) {k : Nat} {v : α'} (hk : vs[k]? = some v) :
    ∃ x, (∀ i, (s i)[k]? = some (x i)) ∧ P x v := by
  obtain ⟨l, rfl, hl⟩ := h
  induction hl generalizing k with
  | nil => simp at hk
  | @cons x v' xs vs' h _ ih =>
    cases k with
    | zero => simp at hk; subst hk; exact ⟨x, fun i => by simp, h⟩
    | succ k => simp at hk; obtain ⟨x, hx, hP⟩ := ih hk; exact ⟨x, fun i => by simpa using hx i, hP⟩

end Cols

section Rules

variable {S M E : Type} [DecidableEq ι]

/-- Loop rule for `mapM` on vectors held by the parties. -/
theorem Spec.mapCols {P : (ι → α) → α' → Prop} {Q : (ι → β) → β' → Prop} {g : α' → β'}
    {f : ι → α → MPC ι S M E β} {s : ι → List α} {vs : List α'} {st : ι → S} {I : (ι → S) → Prop}
    (hs : Cols P s vs)
    (h : ∀ x v st, P x v → I st → Spec (fun i => f i (x i)) st (fun r st' => Q r (g v) ∧ I st'))
    (hI : I st) :
    Spec (fun i => (s i).mapM (f i)) st (fun r st' => Cols Q r (vs.map g) ∧ I st') := by
  obtain ⟨l, rfl, hl⟩ := hs
  induction hl generalizing st with
  | nil => exact Spec.pure ⟨Cols.nil, hI⟩
  | @cons x v xs vs hx _ ih =>
    simp only [List.map_cons, List.mapM_cons]
    refine Spec.bind (h x v st hx hI) ?_
    rintro r st₁ ⟨hr, hI₁⟩
    refine Spec.bind (ih hI₁) ?_
    rintro rs st₂ ⟨hrs, hI₂⟩
    exact Spec.pure ⟨Cols.cons hr hrs, hI₂⟩

/-- Loop rule for `mapM` where the values computed are only related to the inputs (the
relation may be non-functional). -/
theorem Spec.mapColsRel {P : (ι → α) → α' → Prop} {Q : (ι → α) → (ι → β) → Prop}
    {f : ι → α → MPC ι S M E β} {s : ι → List α} {vs : List α'} {st : ι → S} {I : (ι → S) → Prop}
    (hs : Cols P s vs)
    (h : ∀ x v st, P x v → I st → Spec (fun i => f i (x i)) st (fun r st' => Q x r ∧ I st'))
    (hI : I st) :
    Spec (fun i => (s i).mapM (f i)) st (fun r st' =>
      (∃ (l : List (ι → α)) (rs : List (ι → β)), (s = fun i => l.map (· i)) ∧
        (r = fun i => rs.map (· i)) ∧ List.Forall₂ P l vs ∧ List.Forall₂ Q l rs) ∧ I st') := by
  obtain ⟨l, rfl, hl⟩ := hs
  refine (Spec.mapM (I := I) (P := fun x r => Q x r) ?_ hI).mono ?_
  · intro x hx st hI
    obtain ⟨v, hv⟩ : ∃ v, P x v := by
      clear hI h
      induction hl with
      | nil => simp at hx
      | @cons y v _ _ h _ ih =>
        rcases List.mem_cons.mp hx with rfl | hx
        · exact ⟨v, h⟩
        · exact ih hx
    exact h x v st hv hI
  · rintro r st' ⟨rs, rfl, hrs, hI'⟩
    exact ⟨⟨l, rs, rfl, rfl, hl, hrs⟩, hI'⟩

/-- Loop rule for a fold over a public list. -/
theorem Spec.foldlM {σ V : Type} {f : ι → σ → α → MPC ι S M E σ} {s : ι → σ} {v : V} {l : List α}
    {st : ι → S} {I : (ι → S) → Prop} {Rel : (ι → σ) → V → Prop} {step : V → α → V}
    (h : ∀ a ∈ l, ∀ s v st, Rel s v → I st →
      Spec (fun i => f i (s i) a) st (fun r st' => Rel r (step v a) ∧ I st'))
    (hs : Rel s v) (hI : I st) :
    Spec (fun i => l.foldlM (f i) (s i)) st (fun r st' => Rel r (l.foldl step v) ∧ I st') := by
  induction l generalizing s v st with
  | nil => exact Spec.pure ⟨hs, hI⟩
  | cons a l ih =>
    simp only [List.foldlM_cons, List.foldl_cons]
    refine Spec.bind (h a (by simp) s v st hs hI) ?_
    rintro r st₁ ⟨hr, hI₁⟩
    exact ih (fun b hb => h b (by simp [hb])) hr hI₁

/-- Loop rule for a fold over a vector held by the parties. -/
theorem Spec.foldCols {σ V : Type} {P : (ι → α) → α' → Prop} {f : ι → σ → α → MPC ι S M E σ}
    {s : ι → σ} {v : V} {xs : ι → List α} {vs : List α'}
    {st : ι → S} {I : (ι → S) → Prop} {Rel : (ι → σ) → V → Prop} {step : V → α' → V}
    (hxs : Cols P xs vs)
    (h : ∀ x a s v st, P x a → Rel s v → I st →
      Spec (fun i => f i (s i) (x i)) st (fun r st' => Rel r (step v a) ∧ I st'))
    (hs : Rel s v) (hI : I st) :
    Spec (fun i => (xs i).foldlM (f i) (s i)) st
      (fun r st' => Rel r (vs.foldl step v) ∧ I st') := by
  obtain ⟨l, rfl, hl⟩ := hxs
  induction hl generalizing s v st with
  | nil => exact Spec.pure ⟨hs, hI⟩
  | @cons x a xs vs hx _ ih =>
    simp only [List.map_cons, List.foldlM_cons, List.foldl_cons]
    refine Spec.bind (h x a s v st hx hs hI) ?_
    rintro r st₁ ⟨hr, hI₁⟩
    exact ih hr hI₁

/-- A public condition selects the branch. -/
theorem Spec.ite' {c : Prop} [Decidable c] {p q : ι → MPC ι S M E α} {st : ι → S} {Q}
    (h : c → Spec p st Q) (h' : ¬ c → Spec q st Q) :
    Spec (fun i => if c then p i else q i) st Q := by
  by_cases hc : c
  · simpa [hc] using h hc
  · simpa [hc] using h' hc

end Rules

end Verif
