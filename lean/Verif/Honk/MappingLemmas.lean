import Verif.Honk.TraceLemmas

/-!
# What the permutation columns contain
-/

namespace Verif.Honk

variable {F : Type}

/-- The default target of a place. -/
def self (x : Cell) : Target := ⟨x.2, x.1, false, false⟩

/-- Each place of the cycle points to the next one, the last to the image of the tag. -/
def SigOk (s : Cell → Target) (image : Nat) : List Cell → Prop
  | [] => True
  | [e] => (s e).isTag = true ∧ (s e).row = image ∧ (s e).isPublic = false
  | e :: f :: es => s e = self f ∧ SigOk s image (f :: es)

/-- The first place of the cycle has the tag, the others are themselves. -/
def IdOk (d : Cell → Target) (tag : Nat) : List Cell → Prop
  | [] => True
  | e :: es => ((d e).isTag = true ∧ (d e).row = tag ∧ (d e).isPublic = false) ∧ ∀ x ∈ es, d x = self x

theorem SigOk.congr {s s' : Cell → Target} {image : Nat} : ∀ {l : List Cell}, (∀ x ∈ l, s' x = s x) → SigOk s image l →
    SigOk s' image l
  | [], _, _ => trivial
  | [e], h, hs => by rw [SigOk, h e (by simp)]; exact hs
  | e :: f :: es, h, hs =>
    ⟨by rw [h e (by simp)]; exact hs.1, SigOk.congr (fun x hx => h x (List.mem_cons_of_mem _ hx)) hs.2⟩

theorem IdOk.congr {d d' : Cell → Target} {tag : Nat} {l : List Cell} (h : ∀ x ∈ l, d' x = d x) (hd : IdOk d tag l) :
    IdOk d' tag l := by
  cases l with
  | nil => trivial
  | cons e es =>
    refine ⟨by rw [h e (by simp)]; exact hd.1, fun x hx => ?_⟩
    rw [h x (List.mem_cons_of_mem _ hx)]
    exact hd.2 x hx

theorem link_cons (s : Cell → Target) (e f : Cell) (es : List Cell) :
    link s (e :: f :: es) = link (Function.update s e { s e with row := f.2, col := f.1 }) (f :: es) := rfl

theorem link_other (s : Cell → Target) : ∀ (l : List Cell) (x : Cell), x ∉ l → link s l x = s x
  | [], _, _ => rfl
  | [_], _, _ => rfl
  | e :: f :: es, x, h => by
    rw [List.mem_cons, not_or] at h
    rw [link_cons, link_other _ (f :: es) x h.2, Function.update_of_ne h.1]

theorem link_ok (s : Cell → Target) (image : Nat) : ∀ (e : Cell) (es : List Cell), (e :: es).Nodup →
    (∀ x ∈ (e :: es), x ≠ (e :: es).getLast (by simp) → s x = self x) →
    ((s ((e :: es).getLast (by simp))).isTag = true ∧ (s ((e :: es).getLast (by simp))).row = image ∧
      (s ((e :: es).getLast (by simp))).isPublic = false) → SigOk (link s (e :: es)) image (e :: es)
  | e, [], _, _, h => h
  | e, f :: es, hn, hs, h => by
    rw [List.nodup_cons] at hn
    have hlast : (e :: f :: es).getLast (by simp) = (f :: es).getLast (by simp) := List.getLast_cons (by simp)
    have hlm : (f :: es).getLast (by simp) ∈ f :: es := List.getLast_mem (by simp)
    refine ⟨?_, ?_⟩
    · rw [link_cons, link_other _ _ _ hn.1, Function.update_self, hs e (by simp) (by
        rw [hlast]; intro he; exact hn.1 (he ▸ hlm))]
      rfl
    · rw [link_cons]
      have hne : ∀ x ∈ f :: es, x ≠ e := fun x hx he => hn.1 (he ▸ hx)
      refine link_ok _ image f es hn.2 ?_ ?_
      · intro x hx hxl
        rw [Function.update_of_ne (hne x hx)]
        exact hs x (List.mem_cons_of_mem _ hx) (by rw [hlast]; exact hxl)
      · rw [Function.update_of_ne (hne _ hlm), ← hlast]
        exact h

theorem addCycle_ok {c : Builder F} {m m' : Mapping} {l : List Cell} {k : Nat} (h : addCycle c m (l, k) = .ok m') (hn : l.Nodup)
    (hs : ∀ x ∈ l, m.sigmas x = self x) (hi : ∀ x ∈ l, m.ids x = self x) :
    SigOk m'.sigmas (c.tauOf (c.tag k)) l ∧ IdOk m'.ids (c.tag k) l ∧
    ∀ x, x ∉ l → m'.sigmas x = m.sigmas x ∧ m'.ids x = m.ids x := by
  cases l with
  | nil => cases h; exact ⟨trivial, trivial, fun _ _ => ⟨rfl, rfl⟩⟩
  | cons e es =>
    simp only [addCycle] at h
    cases h1 : index c.tags k with
    | error e => rw [h1] at h; cases h
    | ok tag =>
      have htag : c.tag k = tag := by rw [Builder.tag, List.getD_eq_getElem?_getD, getElem_of_index h1]; rfl
      rw [h1] at h
      cases h2 : c.tau.lookup tag with
      | none => simp only [h2, bind, Except.bind] at h; cases h
      | some image =>
        simp only [h2, bind, Except.bind, pure, Except.pure] at h
        have him : c.tauOf (c.tag k) = image := by rw [htag, Builder.tauOf, h2]; rfl
        rw [him, htag, ← Except.ok.inj h]
        refine ⟨?_, ?_, ?_⟩
        · have hlm : (e :: es).getLast (by simp) ∈ e :: es := List.getLast_mem (by simp)
          refine link_ok _ image e es hn ?_ ?_
          · intro x hx hxl
            rw [Function.update_of_ne hxl]
            exact hs x hx
          · rw [Function.update_self, hs _ hlm]
            exact ⟨rfl, rfl, rfl⟩
        · refine ⟨?_, fun x hx => ?_⟩
          · simp only [Function.update_self, hi e (by simp)]
            exact ⟨trivial, trivial, rfl⟩
          · show Function.update m.ids e _ x = _
            have hne : x ≠ e := fun he => (List.nodup_cons.1 hn).1 (he ▸ hx)
            rw [Function.update_of_ne hne]
            exact hi x (List.mem_cons_of_mem _ hx)
        · intro x hx
          have hlm : (e :: es).getLast (by simp) ∈ e :: es := List.getLast_mem (by simp)
          refine ⟨?_, ?_⟩
          · show link _ _ x = _
            have hne : x ≠ (e :: es).getLast (by simp) := fun he => hx (he ▸ hlm)
            rw [link_other _ _ _ hx, Function.update_of_ne hne]
          · show Function.update m.ids e _ x = _
            have hne : x ≠ e := fun he => hx (he ▸ by simp)
            rw [Function.update_of_ne hne]

theorem addCycles_ok {c : Builder F} (l : List (List Cell × Nat)) {m m' : Mapping} (h : l.foldlM (addCycle c) m = .ok m')
    (hn : (l.flatMap (·.1)).Nodup) (hs : ∀ x ∈ l.flatMap (·.1), m.sigmas x = self x)
    (hi : ∀ x ∈ l.flatMap (·.1), m.ids x = self x) :
    (∀ y ∈ l, SigOk m'.sigmas (c.tauOf (c.tag y.2)) y.1 ∧ IdOk m'.ids (c.tag y.2) y.1) ∧
    ∀ x, x ∉ l.flatMap (·.1) → m'.sigmas x = m.sigmas x ∧ m'.ids x = m.ids x := by
  induction l generalizing m with
  | nil => cases h; exact ⟨by simp, fun _ _ => ⟨rfl, rfl⟩⟩
  | cons y l ih =>
    rw [List.foldlM_cons] at h
    cases h1 : addCycle c m y with
    | error e => rw [h1] at h; cases h
    | ok m1 =>
      rw [h1] at h
      rw [List.flatMap_cons, List.nodup_append] at hn
      obtain ⟨a1, a2, a3⟩ := addCycle_ok (l := y.1) (k := y.2) h1 hn.1 (fun x hx => hs x (by simp [hx]))
        (fun x hx => hi x (by simp [hx]))
      have hdis : ∀ x ∈ l.flatMap (·.1), x ∉ y.1 := fun x hx hx' => hn.2.2 x hx' x hx rfl
      obtain ⟨b1, b2⟩ := ih h hn.2.1
        (fun x hx => by rw [(a3 x (hdis x hx)).1]; exact hs x (by rw [List.flatMap_cons]; exact List.mem_append_right _ hx))
        (fun x hx => by rw [(a3 x (hdis x hx)).2]; exact hi x (by rw [List.flatMap_cons]; exact List.mem_append_right _ hx))
      refine ⟨fun z hz => ?_, fun x hx => ?_⟩
      · rcases List.mem_cons.1 hz with rfl | hz
        · have hd : ∀ x ∈ z.1, x ∉ l.flatMap (·.1) := fun x hx hx' => hn.2.2 x hx x hx' rfl
          exact ⟨a1.congr fun x hx => (b2 x (hd x hx)).1, a2.congr fun x hx => (b2 x (hd x hx)).2⟩
        · exact b1 z hz
      · rw [List.flatMap_cons, List.mem_append, not_or] at hx
        exact ⟨(b2 x hx.2).1.trans (a3 x hx.1).1, (b2 x hx.2).2.trans (a3 x hx.1).2⟩

/-- The first wires of the rows of the public inputs. -/
def IsPub (c : Builder F) (x : Cell) : Prop := x.1 = 0 ∧ 1 ≤ x.2 ∧ x.2 ≤ c.inputs.length

instance (c : Builder F) (x : Cell) : Decidable (IsPub c x) := inferInstanceAs (Decidable (_ ∧ _ ∧ _))

theorem addPublic_ids (c : Builder F) (m : Mapping) : (addPublic c m).ids = m.ids := by
  rw [addPublic]
  generalize List.range c.inputs.length = l
  induction l generalizing m with
  | nil => rfl
  | cons i l ih => rw [List.foldl_cons, ih]

/-- The rows of the public inputs, one by one. -/
def pubStep (m : Mapping) (i : Nat) : Mapping :=
  { m with sigmas := Function.update m.sigmas (0, i + 1) { m.sigmas (0, i + 1) with row := i + 1, col := 0, isPublic := true } }

theorem addPublic_eq (c : Builder F) (m : Mapping) : addPublic c m = (List.range c.inputs.length).foldl pubStep m := rfl

theorem addPublic_sigmas (c : Builder F) (m : Mapping) (x : Cell) :
    (addPublic c m).sigmas x = if IsPub c x then { m.sigmas x with row := x.2, col := 0, isPublic := true } else m.sigmas x := by
  have key : ∀ k, ((List.range k).foldl pubStep m).sigmas x =
      if x.1 = 0 ∧ 1 ≤ x.2 ∧ x.2 ≤ k then { m.sigmas x with row := x.2, col := 0, isPublic := true } else m.sigmas x := by
    intro k
    induction k with
    | zero => rw [if_neg (by omega)]; rfl
    | succ k ih =>
      rw [List.range_succ, List.foldl_append, List.foldl_cons, List.foldl_nil, pubStep]
      show Function.update _ _ _ x = _
      by_cases hx : x = (0, k + 1)
      · subst hx
        rw [Function.update_self, if_pos ⟨rfl, by simp, by simp⟩, ih, if_neg (by simp)]
      · rw [Function.update_of_ne hx, ih]
        have : (x.1 = 0 ∧ 1 ≤ x.2 ∧ x.2 ≤ k) ↔ (x.1 = 0 ∧ 1 ≤ x.2 ∧ x.2 ≤ k + 1) := by
          constructor
          · rintro ⟨a, b, d⟩; exact ⟨a, b, by omega⟩
          · rintro ⟨a, b, d⟩
            refine ⟨a, b, ?_⟩
            by_contra hlt
            exact hx (Prod.ext a (by show x.2 = k + 1; omega))
        simp only [this]
  exact key _

/-! ## Cycles with the public inputs -/

/-- A place of the trace or a public input (by its row). -/
abbrev Place := Cell ⊕ Nat

/-- The cycle with a further place for each public input. -/
def ext (c : Builder F) (l : List Cell) : List Place :=
  l.flatMap fun x => if IsPub c x then [.inl x, .inr x.2] else [.inl x]

/-- After the first wire of a public input comes the second one. -/
def PubLinked (c : Builder F) : List Cell → Prop
  | [] => True
  | e :: es => (IsPub c e → es.head? = some (1, e.2)) ∧ PubLinked c es

section Names

variable [Ring F]

/-- The name of a place. -/
def cellName (x : Cell) : F := ((x.2 + separator * x.1 : Nat) : F)

/-- The name of a tag. -/
def tagName (t : Nat) : F := ((separator * 4 + t : Nat) : F)

/-- The names of the extended cycle. -/
def name : Place → F
  | .inl x => cellName x
  | .inr r => -((r + 1 : Nat) : F)

/-- The values of the extended cycle. -/
def value (w : Cell → F) (p : Nat → F) : Place → F
  | .inl x => w x
  | .inr r => p r

theorem ext_cons (c : Builder F) (e : Cell) (es : List Cell) :
    ext c (e :: es) = Sum.inl e :: ((if IsPub c e then [.inr e.2] else []) ++ ext c es) := by
  rw [ext, List.flatMap_cons]
  by_cases h : IsPub c e
  · simp [h, ext]
  · simp [h, ext]

variable {c : Builder F} {w : Cell → F} {p : Nat → F}

theorem ends_ext {s : Cell → Target} {image : Nat} : ∀ {l : List Cell}, PubLinked c l → SigOk s image l →
    (ends (value w p) name (tagName image : F) (ext c l)).Perm
      (l.map (fun x => (w x, Target.value (if IsPub c x then { s x with row := x.2, col := 0, isPublic := true } else s x))) ++
        (l.filter fun x => IsPub c x).map fun x => (p x.2, ((separator + x.2 : Nat) : F)))
  | [], _, _ => List.Perm.refl _
  | [e], hl, hs => by
    have he : ¬ IsPub c e := fun h => by have := hl.1 h; cases this
    rw [ext_cons, if_neg he, List.filter_cons_of_neg (by simpa using he)]
    simp only [List.nil_append, ext, List.flatMap_nil, List.map_cons, List.map_nil, if_neg he, List.filter_nil, List.append_nil,
      ends, value]
    rw [Target.value, hs.2.2, hs.1, hs.2.1]
    exact List.Perm.refl _
  | e :: f :: es, hl, hs => by
    have ih := ends_ext hl.2 hs.2
    obtain ⟨tl, htl⟩ : ∃ tl, ext c (f :: es) = Sum.inl f :: tl := ⟨_, ext_cons c f es⟩
    rw [ext_cons]
    by_cases he : IsPub c e
    · have hf : f = (1, e.2) := by have := hl.1 he; simpa using this
      rw [if_pos he, List.map_cons, if_pos he, List.filter_cons_of_pos (by simpa using he), List.map_cons]
      rw [htl] at ih ⊢
      simp only [List.cons_append, List.nil_append, ends]
      have e1 : Target.value { s e with row := e.2, col := 0, isPublic := true } = (name (.inr e.2) : F) := by
        simp only [Target.value, if_true, Nat.mul_zero, Nat.add_zero, name]
      have e2 : (name (.inl f) : F) = ((separator + e.2 : Nat) : F) := by
        rw [hf]; simp only [name, cellName]; congr 1; simp [Nat.add_comm]
      rw [e1, e2]
      refine List.Perm.cons _ ?_
      exact (List.Perm.cons _ ih).trans (List.perm_middle.symm)
    · rw [if_neg he, List.map_cons, if_neg he, List.filter_cons_of_neg (by simpa using he), List.nil_append]
      rw [htl] at ih ⊢
      simp only [ends]
      have e1 : Target.value (s e) = (name (.inl f) : F) := by
        rw [hs.1]; simp [Target.value, self, name, cellName]
      rw [e1, List.cons_append]
      exact List.Perm.cons _ ih

theorem map_ext (l : List Cell) :
    ((ext c l).map fun x => (value w p x, (name x : F))).Perm
      (l.map (fun x => (w x, cellName x)) ++ (l.filter fun x => IsPub c x).map fun x => (p x.2, -((x.2 + 1 : Nat) : F))) := by
  induction l with
  | nil => exact List.Perm.refl _
  | cons e es ih =>
    rw [ext_cons]
    by_cases he : IsPub c e
    · rw [if_pos he, List.filter_cons_of_pos (by simpa using he)]
      simp only [List.map_cons, List.cons_append, List.nil_append, value, name]
      exact List.Perm.cons _ ((List.Perm.cons _ ih).trans List.perm_middle.symm)
    · rw [if_neg he, List.filter_cons_of_neg (by simpa using he)]
      simp only [List.map_cons, List.cons_append, List.nil_append, value, name]
      exact List.Perm.cons _ ih

theorem starts_ext {d : Cell → Target} {tag : Nat} {l : List Cell} (hd : IdOk d tag l) :
    (starts (value w p) name (tagName tag : F) (ext c l)).Perm
      (l.map (fun x => (w x, (d x).value)) ++
        (l.filter fun x => IsPub c x).map fun x => (p x.2, -((x.2 + 1 : Nat) : F))) := by
  cases l with
  | nil => exact List.Perm.refl _
  | cons e es =>
    have h1 : es.map (fun x => (w x, ((d x).value : F))) = es.map fun x => (w x, cellName x) := by
      refine List.map_congr_left fun x hx => ?_
      rw [hd.2 x hx]; simp [Target.value, self, cellName]
    have h2 : ((d e).value : F) = tagName tag := by
      rw [Target.value, hd.1.2.2, hd.1.1, hd.1.2.1]; rfl
    have ih := map_ext (c := c) (w := w) (p := p) es
    rw [ext_cons, List.map_cons, h1, h2, starts, List.map_append]
    by_cases he : IsPub c e
    · rw [if_pos he, List.filter_cons_of_pos (by simpa using he)]
      simp only [List.map_cons, List.cons_append, List.nil_append, value, name, List.map_nil]
      exact List.Perm.cons _ ((List.Perm.cons _ ih).trans List.perm_middle.symm)
    · rw [if_neg he, List.filter_cons_of_neg (by simpa using he)]
      simp only [List.cons_append, List.nil_append, value, name, List.map_nil]
      exact List.Perm.cons _ ih

end Names

end Verif.Honk
