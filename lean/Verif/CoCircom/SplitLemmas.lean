import Verif.CoCircom.InputLemmas

/-!
# Lemmas about splitting and merging inputs

The maps of the parties are compared with one map of values in the clear, marked as public or shared.
-/

namespace Verif.CoCircom

open Spec.Input (Magnitude Scalar Leaves Entry Readable Gives GoodNames)

variable {ι A R : Type} {p : Nat} {rd : Readers (ZMod p)} {Sh : (ι → A) → ZMod p → Prop} {pub : List String}

/-- The parties hold the marked value. -/
def HoldsIn (Sh : (ι → A) → ZMod p → Prop) (x : ι → InputVal (ZMod p) A) : InputVal (ZMod p) (ZMod p) → Prop
  | .pub v => x = fun _ => .pub v
  | .shared v => ∃ s, (x = fun i => .shared (s i)) ∧ Sh s v

/-- The maps of the parties represent the marked map `m`. -/
def HoldMap (Sh : (ι → A) → ZMod p → Prop) (s : ι → List (String × InputVal (ZMod p) A))
    (m : List (String × InputVal (ZMod p) (ZMod p))) : Prop :=
  ∃ l : List (String × (ι → InputVal (ZMod p) A)), (s = fun i => l.map fun e => (e.1, e.2 i)) ∧
    List.Forall₂ (fun e c => e.1 = c.1 ∧ HoldsIn Sh e.2 c.2) l m

theorem HoldMap.nil : HoldMap Sh (fun _ => []) [] := ⟨[], rfl, .nil⟩

theorem HoldMap.append {s s' : ι → List (String × InputVal (ZMod p) A)} {m m' : List (String × InputVal (ZMod p) (ZMod p))}
    (h : HoldMap Sh s m) (h' : HoldMap Sh s' m') : HoldMap Sh (fun i => s i ++ s' i) (m ++ m') := by
  obtain ⟨l, rfl, hl⟩ := h
  obtain ⟨l', rfl, hl'⟩ := h'
  exact ⟨l ++ l', by funext i; simp, List.rel_append hl hl'⟩

theorem HoldMap.insert {s : ι → List (String × InputVal (ZMod p) A)} {m : List (String × InputVal (ZMod p) (ZMod p))}
    (h : HoldMap Sh s m) (k : String) {x : ι → InputVal (ZMod p) A} {c : InputVal (ZMod p) (ZMod p)} (hx : HoldsIn Sh x c) :
    HoldMap Sh (fun i => insertKey k (x i) (s i)) (insertKey k c m) := by
  obtain ⟨l, rfl, hl⟩ := h
  induction hl with
  | nil => exact ⟨[(k, x)], rfl, .cons ⟨rfl, hx⟩ .nil⟩
  | @cons e c' l m he hl ih =>
    obtain ⟨k', y⟩ := e
    obtain ⟨_, c'⟩ := c'
    obtain ⟨rfl, hy⟩ := he
    by_cases hk : k' = k
    · refine ⟨(k, x) :: l, by funext i; simp [insertKey, hk], ?_⟩
      simp only [insertKey, if_pos hk]
      exact .cons ⟨rfl, hx⟩ hl
    · obtain ⟨l', h1, h2⟩ := ih
      refine ⟨(k', y) :: l', ?_, ?_⟩
      · funext i
        simp only [List.map_cons, insertKey, hk, if_false]
        rw [← congrFun h1 i]
      · simp only [insertKey, hk, if_false]
        exact .cons ⟨rfl, hy⟩ h2

theorem HoldMap.get {s : ι → List (String × InputVal (ZMod p) A)} {m : List (String × InputVal (ZMod p) (ZMod p))}
    (h : HoldMap Sh s m) (k : String) : (getKey k m = none ∧ ∀ i, getKey k (s i) = none) ∨
      ∃ c x, getKey k m = some c ∧ (∀ i, getKey k (s i) = some (x i)) ∧ HoldsIn Sh x c := by
  obtain ⟨l, rfl, hl⟩ := h
  induction hl with
  | nil => exact .inl ⟨rfl, fun _ => rfl⟩
  | @cons e c' l m he hl ih =>
    obtain ⟨k', y⟩ := e
    obtain ⟨_, c'⟩ := c'
    obtain ⟨rfl, hy⟩ := he
    by_cases hk : k' = k
    · exact .inr ⟨c', y, by simp [getKey, hk], fun i => by simp [getKey, hk], hy⟩
    · simpa [getKey, hk] using ih

theorem HoldMap.held {s : ι → List (String × InputVal (ZMod p) A)} {m : List (String × InputVal (ZMod p) (ZMod p))}
    (h : HoldMap Sh s m) {k : String} {c : InputVal (ZMod p) (ZMod p)} (hk : getKey k m = some c) :
    Spec.Input.Held Sh (fun i => getKey k (s i)) c := by
  rcases h.get k with ⟨h1, -⟩ | ⟨c', x, h1, h2, h3⟩
  · rw [h1] at hk; cases hk
  · rw [h1] at hk
    cases hk
    cases c with
    | pub v => cases h3; exact h2
    | shared v => obtain ⟨s, rfl, h4⟩ := h3; exact ⟨s, h4, h2⟩

theorem HoldMap.absent {s : ι → List (String × InputVal (ZMod p) A)} {m : List (String × InputVal (ZMod p) (ZMod p))}
    (h : HoldMap Sh s m) {k : String} (hk : getKey k m = none) (i : ι) : getKey k (s i) = none := by
  rcases h.get k with ⟨-, h1⟩ | ⟨c', x, h1, h2, h3⟩
  · exact h1 i
  · rw [h1] at hk; cases hk

/-! ## Splitting -/

/-- The mark of a value. -/
def mark (isPub : Bool) (v : ZMod p) : InputVal (ZMod p) (ZMod p) := if isPub then .pub v else .shared v

theorem insertAll_hold {share : ZMod p → R → (ι → A) × R} (hs : ∀ v rng, Sh (share v rng).1 v) (isPub : Bool)
    (vals : List (String × ZMod p)) {s : ι → List (String × InputVal (ZMod p) A)}
    {m : List (String × InputVal (ZMod p) (ZMod p))} (h : HoldMap Sh s m) (rng : R) :
    HoldMap Sh (insertAll share isPub vals s rng).1
      (vals.foldl (fun m e => insertKey e.1 (mark isPub e.2) m) m) := by
  induction vals generalizing s m rng with
  | nil => exact h
  | cons e vals ih =>
    obtain ⟨k, v⟩ := e
    cases isPub with
    | true => exact ih (h.insert k (x := fun _ => .pub v) (c := .pub v) rfl) rng
    | false => exact ih (h.insert k (x := fun i => .shared ((share v rng).1 i)) (c := .shared v) ⟨_, rfl, hs v rng⟩) _

/-- The marked map of an input. -/
def clearLoop (rd : Readers (ZMod p)) (pub : List String) : List (String × Json) →
    List (String × InputVal (ZMod p) (ZMod p)) → Except Err (List (String × InputVal (ZMod p) (ZMod p)))
  | [], m => .ok m
  | (name, val) :: l, m => do
    let vals ← parseEntry rd name val
    clearLoop rd pub l (vals.foldl (fun m e => insertKey e.1 (mark (pub.contains name) e.2) m) m)

theorem splitLoop_hold {share : ZMod p → R → (ι → A) × R} (hs : ∀ v rng, Sh (share v rng).1 v)
    {input : List (String × Json)} {s s' : ι → List (String × InputVal (ZMod p) A)}
    {m : List (String × InputVal (ZMod p) (ZMod p))} (h : HoldMap Sh s m) {rng : R}
    (hs' : splitLoop rd share pub input s rng = .ok s') : ∃ m', clearLoop rd pub input m = .ok m' ∧ HoldMap Sh s' m' := by
  induction input generalizing s m rng with
  | nil => cases hs'; exact ⟨m, rfl, h⟩
  | cons e input ih =>
    obtain ⟨name, val⟩ := e
    obtain ⟨vals, h1, hs'⟩ := CircomVm.bind_ok hs'
    obtain ⟨m', h2, h3⟩ := ih (insertAll_hold hs (pub.contains name) vals h rng) hs'
    exact ⟨m', by simpa [clearLoop, h1, bind, Except.bind] using h2, h3⟩

theorem splitLoop_ok_iff {share : ZMod p → R → (ι → A) × R} {input : List (String × Json)}
    {s : ι → List (String × InputVal (ZMod p) A)} {rng : R} :
    (∃ s', splitLoop rd share pub input s rng = .ok s') ↔ ∀ e ∈ input, Readable rd e.2 := by
  induction input generalizing s rng with
  | nil => exact ⟨fun _ => by simp, fun _ => ⟨_, rfl⟩⟩
  | cons e input ih =>
    obtain ⟨name, val⟩ := e
    rw [List.forall_mem_cons, ← parseEntry_iff (name := name)]
    constructor
    · rintro ⟨s', h⟩
      obtain ⟨vals, h1, h⟩ := CircomVm.bind_ok h
      exact ⟨⟨_, h1⟩, ih.mp ⟨_, h⟩⟩
    · rintro ⟨⟨vals, h1⟩, h⟩
      obtain ⟨s', h2⟩ := ih.mpr h
      exact ⟨s', by simp only [splitLoop, h1]; exact h2⟩

theorem foldl_insert_new {f : ZMod p → InputVal (ZMod p) (ZMod p)} {vals : List (String × ZMod p)}
    {m : List (String × InputVal (ZMod p) (ZMod p))} (hv : (vals.map Prod.fst).Nodup)
    (hm : ∀ e ∈ vals, e.1 ∉ m.map Prod.fst) :
    vals.foldl (fun m e => insertKey e.1 (f e.2) m) m = m ++ vals.map (Prod.map id f) := by
  induction vals generalizing m with
  | nil => simp
  | cons e vals ih =>
    obtain ⟨h1, h2⟩ := List.nodup_cons.mp hv
    obtain ⟨h3, h4⟩ := List.forall_mem_cons.mp hm
    rw [List.foldl_cons, insertKey_new h3, ih h2]
    · simp [Prod.map]
    · intro e' he'
      simp only [List.map_append, List.map_cons, List.map_nil, List.mem_append, List.mem_singleton, not_or]
      exact ⟨h4 e' he', fun h => h1 (h ▸ List.mem_map_of_mem he')⟩

/-- The marked map of an input with good names, behind a map without these names. -/
theorem clearLoop_spec {input : List (String × Json)} (hg : GoodNames input)
    {m m' : List (String × InputVal (ZMod p) (ZMod p))} (hm : (m.map Prod.fst).Nodup)
    (hn : ∀ e ∈ m, origName e.1 ∉ input.map Prod.fst) (h : clearLoop rd pub input m = .ok m') :
    (m'.map Prod.fst).Nodup ∧ ∀ k a, (k, a) ∈ m' ↔ (k, a) ∈ m ∨ Gives rd pub input k a := by
  induction input generalizing m with
  | nil =>
    cases h
    exact ⟨hm, fun k a => ⟨.inl, fun h => h.resolve_right (by rintro (h | h) <;> simp at *)⟩⟩
  | cons e input ih =>
    obtain ⟨name, val⟩ := e
    obtain ⟨hg1, hg2⟩ := hg
    obtain ⟨h1, h2⟩ := List.nodup_cons.mp hg1
    obtain ⟨h3, h4⟩ := List.forall_mem_cons.mp hg2
    obtain ⟨vals, h5, h⟩ := CircomVm.bind_ok h
    have hv := parseEntry_nodup h5
    have ho : ∀ e ∈ vals, origName e.1 = name := fun e he => entry_origName ((parseEntry_mem h5).mp he) h3
    have hnew : ∀ e ∈ vals, e.1 ∉ m.map Prod.fst := fun e he hc => by
      obtain ⟨e', he', hk⟩ := List.mem_map.mp hc
      have := hn e' he'
      rw [hk, ho e he] at this
      exact this (by simp)
    rw [foldl_insert_new hv hnew] at h
    obtain ⟨h6, h7⟩ := ih ⟨h2, h4⟩ (m := m ++ vals.map (Prod.map id (mark (pub.contains name)))) (by
        rw [List.map_append, List.nodup_append']
        refine ⟨hm, by simpa [List.map_map, Function.comp_def] using hv, ?_⟩
        intro k hk hk'
        rw [List.map_map] at hk'
        obtain ⟨e, he, rfl⟩ := List.mem_map.mp hk'
        exact hnew e he hk) (by
        intro e he hc
        rcases List.mem_append.mp he with he | he
        · exact hn e he (List.mem_cons_of_mem _ hc)
        · obtain ⟨e', he', rfl⟩ := List.mem_map.mp he
          rw [show origName (Prod.map id (mark (pub.contains name)) e').1 = name from ho e' he'] at hc
          exact h1 hc) h
    refine ⟨h6, fun k a => ?_⟩
    rw [h7, List.mem_append, or_assoc]
    refine or_congr Iff.rfl ?_
    constructor
    · rintro (hx | hx)
      · obtain ⟨⟨k, v⟩, he, hx⟩ := List.mem_map.mp hx
        cases hx
        have := (parseEntry_mem h5).mp he
        by_cases hp : name ∈ pub
        · simp only [mark, List.contains_iff_mem.mpr hp, if_true, id]
          exact .pub (List.mem_cons_self ..) this hp
        · simp only [mark, show pub.contains name = false by simpa using hp, id]
          exact .secret (List.mem_cons_self ..) this hp
      · cases hx with
        | pub a b c => exact .pub (List.mem_cons_of_mem _ a) b c
        | secret a b c => exact .secret (List.mem_cons_of_mem _ a) b c
    · intro hx
      cases hx with
      | pub a b c =>
        rcases List.mem_cons.mp a with a | a
        · cases a
          exact .inl (List.mem_map.mpr ⟨_, (parseEntry_mem h5).mpr b, by simp [mark, c, Prod.map]⟩)
        · exact .inr (.pub a b c)
      | secret a b c =>
        rcases List.mem_cons.mp a with a | a
        · cases a
          exact .inl (List.mem_map.mpr ⟨_, (parseEntry_mem h5).mpr b, by simp [mark, c, Prod.map]⟩)
        · exact .inr (.secret a b c)

/-- Splitting: the maps of the parties represent a marked map, which has what the input gives. -/
theorem split_spec {share : ZMod p → R → (ι → A) × R} (hs : ∀ v rng, Sh (share v rng).1 v)
    {input : List (String × Json)} (hg : GoodNames input) {s : ι → List (String × InputVal (ZMod p) A)} {rng : R}
    (h : splitLoop rd share pub input (fun _ => []) rng = .ok s) :
    ∃ m, HoldMap Sh s m ∧ (m.map Prod.fst).Nodup ∧ ∀ k a, (k, a) ∈ m ↔ Gives rd pub input k a := by
  obtain ⟨m, h1, h2⟩ := splitLoop_hold hs .nil h
  obtain ⟨h3, h4⟩ := clearLoop_spec hg (by simp) (by simp) h1
  exact ⟨m, h2, h3, fun k a => by simp [h4]⟩

/-- The values under public names are public. -/
theorem gives_pub {input : List (String × Json)} (hg : GoodNames input) {k : String} {a : InputVal (ZMod p) (ZMod p)}
    (h : Gives rd pub input k a) : origName k ∈ pub ↔ ∃ v, a = .pub v := by
  cases h with
  | pub h1 h2 h3 => exact ⟨fun _ => ⟨_, rfl⟩, fun _ => by rwa [entry_origName h2 (hg.2 _ h1)]⟩
  | secret h1 h2 h3 =>
    refine ⟨fun h => ?_, fun ⟨_, h⟩ => by cases h⟩
    rw [entry_origName h2 (hg.2 _ h1)] at h
    exact absurd h h3

/-! ## Merging -/

section

variable {F A : Type} [DecidableEq F] [DecidableEq A]

/-- Two entries may stand side by side. -/
def Comp (pub : List String) (e e' : String × InputVal F A) : Prop := e.1 = e'.1 → origName e.1 ∈ pub ∧ e.2 = e'.2

theorem mergeEntry_iff {r r' : List (String × InputVal F A)} (hr : (r.map Prod.fst).Nodup) {e : String × InputVal F A} :
    mergeEntry pub r e = .ok r' ↔ (∀ e' ∈ r, Comp pub e' e) ∧ r' = insertKey e.1 e.2 r := by
  obtain ⟨k, a⟩ := e
  unfold mergeEntry
  rcases hk : getKey k r with _ | b
  · have hc : ∀ e' ∈ r, Comp pub e' (k, a) := fun e' he' hh => by
      exact absurd (List.mem_map.mpr ⟨e', he', hh⟩) (getKey_none.mp hk)
    simp only [hk, hc, Option.any_none, Option.isSome_none, Bool.false_eq_true, if_false, ite_self, Except.ok.injEq,
      eq_comm]
    exact ⟨fun h => ⟨hc, h⟩, fun h => h.2⟩
  · have hc : (∀ e' ∈ r, Comp pub e' (k, a)) ↔ origName k ∈ pub ∧ b = a := by
      constructor
      · intro h
        exact h (k, b) (getKey_mem hk) rfl
      · rintro ⟨h1, rfl⟩ ⟨k', b'⟩ he' hh
        cases hh
        refine ⟨h1, ?_⟩
        have := (getKey_iff hr).mpr he'
        rw [hk] at this
        cases this
        rfl
    rw [hc]
    by_cases h1 : origName k ∈ pub
    · by_cases h2 : b = a
      · simp [hk, h1, h2, eq_comm]
      · simp [hk, h1, h2]
    · simp [hk, h1]

theorem mem_insertKey {r : List (String × InputVal F A)} {e : String × InputVal F A}
    (h : ∀ e' ∈ r, Comp pub e' e) (hr : (r.map Prod.fst).Nodup) :
    ((insertKey e.1 e.2 r).map Prod.fst).Nodup ∧ ∀ x, x ∈ insertKey e.1 e.2 r ↔ x ∈ r ∨ x = e := by
  rcases hk : getKey e.1 r with _ | b
  · have hn := getKey_none.mp hk
    rw [insertKey_new hn]
    refine ⟨?_, fun x => by simp⟩
    rw [List.map_append, List.nodup_append']
    refine ⟨hr, by simp, ?_⟩
    intro k h1 h2
    simp only [List.map_cons, List.map_nil, List.mem_singleton] at h2
    exact hn (h2 ▸ h1)
  · have hm := getKey_mem hk
    obtain ⟨-, hb⟩ := h _ hm rfl
    cases hb
    rw [insertKey_same hk]
    exact ⟨hr, fun x => ⟨.inl, fun h => h.elim id fun h => h ▸ hm⟩⟩

theorem mergeFold_iff {es r : List (String × InputVal F A)} (hr : (r.map Prod.fst).Nodup) :
    (∃ r', es.foldlM (mergeEntry pub) r = .ok r') ↔ (∀ e ∈ r, ∀ e' ∈ es, Comp pub e e') ∧ es.Pairwise (Comp pub) := by
  induction es generalizing r with
  | nil => simp [pure, Except.pure]
  | cons e es ih =>
    simp only [List.foldlM_cons, List.pairwise_cons, List.forall_mem_cons]
    constructor
    · rintro ⟨r', h⟩
      obtain ⟨r1, h1, h⟩ := CircomVm.bind_ok h
      obtain ⟨h2, rfl⟩ := (mergeEntry_iff hr).mp h1
      obtain ⟨h3, h4⟩ := mem_insertKey h2 hr
      obtain ⟨h5, h6⟩ := (ih h3).mp ⟨_, h⟩
      exact ⟨fun e' he' => ⟨h2 e' he', h5 e' ((h4 e').mpr (.inl he'))⟩, h5 e ((h4 e).mpr (.inr rfl)), h6⟩
    · rintro ⟨h1, h2, h3⟩
      have h4 : ∀ e' ∈ r, Comp pub e' e := fun e' he' => (h1 e' he').1
      obtain ⟨h5, h6⟩ := mem_insertKey h4 hr
      obtain ⟨r', h7⟩ := (ih h5).mpr ⟨fun x hx e' he' => by
        rcases (h6 x).mp hx with hx | rfl
        · exact (h1 x hx).2 e' he'
        · exact h2 e' he', h3⟩
      refine ⟨r', ?_⟩
      rw [(mergeEntry_iff hr).mpr ⟨h4, rfl⟩]
      exact h7

theorem mergeFold_mem {es r r' : List (String × InputVal F A)} (hr : (r.map Prod.fst).Nodup)
    (h : es.foldlM (mergeEntry pub) r = .ok r') : (r'.map Prod.fst).Nodup ∧ ∀ x, x ∈ r' ↔ x ∈ r ∨ x ∈ es := by
  induction es generalizing r with
  | nil => cases h; simpa using hr
  | cons e es ih =>
    simp only [List.foldlM_cons] at h
    obtain ⟨r1, h1, h⟩ := CircomVm.bind_ok h
    obtain ⟨h2, rfl⟩ := (mergeEntry_iff hr).mp h1
    obtain ⟨h3, h4⟩ := mem_insertKey h2 hr
    obtain ⟨h5, h6⟩ := ih h3 h
    exact ⟨h5, fun x => by rw [h6, h4, List.mem_cons, or_assoc]⟩

end

variable [DecidableEq A]

/-- One entry: all parties do what is done with the marked map, if public names have public values. -/
theorem mergeEntry_hold {s : ι → List (String × InputVal (ZMod p) A)} {m : List (String × InputVal (ZMod p) (ZMod p))}
    (h : HoldMap Sh s m) {k : String} {x : ι → InputVal (ZMod p) A} {c : InputVal (ZMod p) (ZMod p)} (hx : HoldsIn Sh x c)
    (hm : ∀ e ∈ m, origName e.1 ∈ pub → ∃ v, e.2 = .pub v) (hc : origName k ∈ pub → ∃ v, c = .pub v) :
    (∃ s' m', mergeEntry pub m (k, c) = .ok m' ∧ (∀ i, mergeEntry pub (s i) (k, x i) = .ok (s' i)) ∧ HoldMap Sh s' m') ∨
      ∃ e, mergeEntry pub m (k, c) = .error e ∧ ∀ i, mergeEntry pub (s i) (k, x i) = .error e := by
  unfold mergeEntry
  have hok := h.insert k hx
  rcases h.get k with ⟨h1, h2⟩ | ⟨c', x', h1, h2, h3⟩
  · refine .inl ⟨_, _, ?_, fun i => ?_, hok⟩
    · simp [h1]
    · simp [h2]
  · by_cases hp : origName k ∈ pub
    · obtain ⟨v, rfl⟩ := hc hp
      obtain ⟨v', rfl⟩ : ∃ v', c' = .pub v' := hm _ (getKey_mem h1) hp
      cases hx
      cases h3
      by_cases hv : v' = v
      · refine .inl ⟨_, _, ?_, fun i => ?_, hok⟩
        · simp [h1, hp, hv]
        · simp [h2, hp, hv]
      · refine .inr ⟨.err "Public entry not the same in all inputs", ?_, fun i => ?_⟩
        · simp [h1, hp, hv]
        · simp [h2, hp, hv]
    · refine .inr ⟨.err "Duplicate entry found in input shares", ?_, fun i => ?_⟩
      · simp [h1, hp]
      · simp [h2, hp]

theorem mergeFold_hold {es : ι → List (String × InputVal (ZMod p) A)} {ms : List (String × InputVal (ZMod p) (ZMod p))}
    (h : HoldMap Sh es ms) (hms : ∀ e ∈ ms, origName e.1 ∈ pub → ∃ v, e.2 = .pub v)
    {s : ι → List (String × InputVal (ZMod p) A)} {m : List (String × InputVal (ZMod p) (ZMod p))}
    (hs : HoldMap Sh s m) (hnd : (m.map Prod.fst).Nodup) (hm : ∀ e ∈ m, origName e.1 ∈ pub → ∃ v, e.2 = .pub v) :
    (∃ s' m', ms.foldlM (mergeEntry pub) m = .ok m' ∧ (∀ i, (es i).foldlM (mergeEntry pub) (s i) = .ok (s' i)) ∧
        HoldMap Sh s' m') ∨
      ∃ e, ms.foldlM (mergeEntry pub) m = .error e ∧ ∀ i, (es i).foldlM (mergeEntry pub) (s i) = .error e := by
  obtain ⟨l, rfl, hl⟩ := h
  induction hl generalizing s m with
  | nil => exact .inl ⟨s, m, rfl, fun _ => rfl, hs⟩
  | @cons e c l ms he hl ih =>
    obtain ⟨k, x⟩ := e
    obtain ⟨_, c⟩ := c
    obtain ⟨rfl, hx⟩ := he
    obtain ⟨hc, hms⟩ := List.forall_mem_cons.mp hms
    simp only [List.map_cons, List.foldlM_cons]
    rcases mergeEntry_hold hs hx hm hc with ⟨s', m', h1, h2, h3⟩ | ⟨e, h1, h2⟩
    · simp only at h1
      obtain ⟨h4, h5⟩ := (mergeEntry_iff hnd).mp h1
      obtain ⟨h6, h7⟩ := mem_insertKey h4 hnd
      rw [← h5] at h6 h7
      have := ih hms h3 h6 fun e he => by
        rcases (h7 e).mp he with he | rfl
        · exact hm e he
        · exact hc
      simpa [h1, h2, bind, Except.bind] using this
    · exact .inr ⟨e, by rw [h1]; rfl, fun i => by rw [h2]; rfl⟩

omit [DecidableEq A] in
theorem pairwise_iff {α β : Type} {P : α → α → Prop} {Q : β → β → Prop} {T : α → β → Prop} {l : List α} {l' : List β}
    (h : List.Forall₂ T l l') (hpq : ∀ a b a' b', T a a' → T b b' → (P a b ↔ Q a' b')) : l.Pairwise P ↔ l'.Pairwise Q := by
  induction h with
  | nil => simp
  | @cons a a' l l' ha hl ih =>
    rw [List.pairwise_cons, List.pairwise_cons, ih]
    refine and_congr ?_ Iff.rfl
    clear ih
    induction hl with
    | nil => simp
    | cons hb _ ih => rw [List.forall_mem_cons, List.forall_mem_cons, ih, hpq _ _ _ _ ha hb]

open Spec.Input (Agree Union)

/-- What the parties get from the users, and the marked maps for it. -/
theorem users_hold {share : ZMod p → R → (ι → A) × R} (hs : ∀ v rng, Sh (share v rng).1 v)
    {users : List (List (String × Json))} {ss : List (ι → List (String × InputVal (ZMod p) A))}
    (hg : ∀ u ∈ users, GoodNames u)
    (h : List.Forall₂ (fun u s => ∃ rng, splitLoop rd share pub u (fun _ => []) rng = .ok s) users ss) :
    ∃ ms, HoldMap Sh (fun i => (ss.map (· i)).flatten) ms.flatten ∧ List.Forall₂ (fun u m => GoodNames u ∧
      (m.map Prod.fst).Nodup ∧ ∀ k a, (k, a) ∈ m ↔ Gives rd pub u k a) users ms := by
  induction h with
  | nil => exact ⟨[], .nil, .nil⟩
  | cons h _ ih =>
    obtain ⟨h1, h2⟩ := List.forall_mem_cons.mp hg
    obtain ⟨ms, h3, h4⟩ := ih h2
    obtain ⟨rng, h⟩ := h
    obtain ⟨m, h5, h6, h7⟩ := split_spec hs h1 h
    exact ⟨m :: ms, h5.append h3, .cons ⟨h1, h6, h7⟩ h4⟩

/-- Merging what the users have split. -/
theorem merge_users {share : ZMod p → R → (ι → A) × R} (hs : ∀ v rng, Sh (share v rng).1 v)
    {users : List (List (String × Json))} {ss : List (ι → List (String × InputVal (ZMod p) A))}
    (hg : ∀ u ∈ users, GoodNames u)
    (h : List.Forall₂ (fun u s => ∃ rng, splitLoop rd share pub u (fun _ => []) rng = .ok s) users ss) :
    (users.Pairwise (Agree rd pub) → ∃ r m, (∀ i, mergeInputShares pub (ss.map (· i)) = .ok (r i)) ∧ HoldMap Sh r m ∧
      Union rd pub users m) ∧
    (¬ users.Pairwise (Agree rd pub) → ∃ e, ∀ i, mergeInputShares pub (ss.map (· i)) = .error e) := by
  obtain ⟨ms, h1, h2⟩ := users_hold hs hg h
  have hmem : ∀ e, e ∈ ms.flatten ↔ ∃ u ∈ users, Gives rd pub u e.1 e.2 := by
    intro e
    clear h1 h hg
    induction h2 with
    | nil => simp
    | cons ha _ ih => rw [List.flatten_cons, List.mem_append, ih, ha.2.2 e.1 e.2, List.exists_mem_cons_iff]
  have hms : ∀ e ∈ ms.flatten, origName e.1 ∈ pub → ∃ v, e.2 = .pub v := fun e he ho => by
    obtain ⟨u, hu, hgv⟩ := (hmem e).mp he
    exact (gives_pub (hg u hu) hgv).mp ho
  have hfold := mergeFold_hold h1 hms .nil (by simp) (by simp)
  have hiff := mergeFold_iff (pub := pub) (es := ms.flatten) (r := []) (by simp)
  have hpair : users.Pairwise (Agree rd pub) ↔ ms.flatten.Pairwise (Comp pub) := by
    rw [List.pairwise_flatten]
    have : ∀ m ∈ ms, m.Pairwise (Comp pub) := by
      intro m hm
      obtain ⟨u, -, hu⟩ : ∃ u ∈ users, (m.map Prod.fst).Nodup := by
        clear h1 h hg hmem hms hfold hiff
        induction h2 with
        | nil => cases hm
        | cons ha _ ih =>
          rcases List.mem_cons.mp hm with rfl | hm
          · exact ⟨_, List.mem_cons_self .., ha.2.1⟩
          · obtain ⟨u, h1, h2⟩ := ih hm
            exact ⟨u, List.mem_cons_of_mem _ h1, h2⟩
      exact (List.pairwise_map.mp hu).imp fun hne he => absurd he hne
    rw [and_iff_right this]
    refine pairwise_iff h2 ?_
    rintro u u' m m' ⟨g1, -, h3⟩ ⟨g2, -, h4⟩
    constructor
    · rintro ha ⟨k, a⟩ he ⟨k', a'⟩ he' hk
      cases hk
      have e1 := (h3 _ _).mp he
      obtain ⟨v, rfl, rfl⟩ := ha _ _ _ e1 ((h4 _ _).mp he')
      exact ⟨(gives_pub g1 e1).mpr ⟨v, rfl⟩, rfl⟩
    · intro hc k a a' e1 e2
      obtain ⟨h5, h6⟩ := hc (k, a) ((h3 _ _).mpr e1) (k, a') ((h4 _ _).mpr e2) rfl
      obtain ⟨v, rfl⟩ := (gives_pub g1 e1).mp h5
      exact ⟨v, rfl, h6.symm⟩
  rcases hfold with ⟨r, m, h3, h4, h5⟩ | ⟨e, h3, h4⟩
  · have hok := (hiff.mp ⟨_, h3⟩).2
    refine ⟨fun _ => ⟨r, m, h4, h5, ?_⟩, fun hn => absurd (hpair.mpr hok) hn⟩
    obtain ⟨h6, h7⟩ := mergeFold_mem (by simp) h3
    exact ⟨h6, fun k a => by rw [h7, hmem]; simp⟩
  · refine ⟨fun hp => ?_, fun _ => ⟨e, h4⟩⟩
    obtain ⟨m, hm⟩ := hiff.mpr ⟨by simp, hpair.mp hp⟩
    rw [h3] at hm
    cases hm

/-- The union of inputs can be computed by splitting and merging in the clear. -/
theorem union_of_merge {users : List (List (String × Json))} {ms : List (List (String × InputVal (ZMod p) (ZMod p)))}
    {ins : List (String × InputVal (ZMod p) (ZMod p))} (hg : ∀ u ∈ users, GoodNames u)
    (h : List.Forall₂ (fun u m => clearLoop rd pub u [] = .ok m) users ms) (hm : mergeInputShares pub ms = .ok ins) :
    users.Pairwise (Agree rd pub) ∧ Union rd pub users ins := by
  have hrel : ∀ {s : Unit → List (String × InputVal (ZMod p) (ZMod p))} {m}, HoldMap (fun x v => x () = v) s m → s () = m := by
    rintro s m ⟨l, rfl, hl⟩
    induction hl with
    | nil => rfl
    | @cons e c l m he hl ih =>
      obtain ⟨k, x⟩ := e
      obtain ⟨_, c⟩ := c
      obtain ⟨rfl, hx⟩ := he
      simp only [List.map_cons, ih]
      cases c with
      | pub v => cases hx; rfl
      | shared v => obtain ⟨s, rfl, rfl⟩ := hx; rfl
  let share : ZMod p → Unit → (Unit → ZMod p) × Unit := fun v r => (fun _ => v, r)
  have hsp : List.Forall₂ (fun u s => ∃ rng, splitLoop rd share pub u (fun _ => []) rng = .ok s) users
      (ms.map fun m _ => m) := by
    rw [List.forall₂_map_right_iff]
    refine h.imp fun u m hc => ⟨(), ?_⟩
    have hr : ∀ e ∈ u, Readable rd e.2 := by
      clear hm h
      generalize ([] : List (String × InputVal (ZMod p) (ZMod p))) = m₀ at hc
      induction u generalizing m₀ with
      | nil => simp
      | cons e u ih =>
        obtain ⟨name, val⟩ := e
        obtain ⟨vals, h1, hc⟩ := CircomVm.bind_ok hc
        rw [List.forall_mem_cons]
        exact ⟨parseEntry_iff.mp ⟨_, h1⟩, ih _ hc⟩
    obtain ⟨s, hs⟩ := (splitLoop_ok_iff (share := share) (s := fun _ => []) (rng := ()) (pub := pub)).mpr hr
    obtain ⟨m', h1, h2⟩ := splitLoop_hold (Sh := fun x v => x () = v) (fun _ _ => rfl) .nil hs
    rw [hc] at h1
    cases h1
    rw [hs]
    exact congrArg _ (funext fun _ => hrel h2)
  have := merge_users (Sh := fun x v => x () = v) (share := share) (fun _ _ => rfl) hg hsp
  simp only [List.map_map, Function.comp_def, List.map_id'] at this
  by_cases hp : users.Pairwise (Agree rd pub)
  · obtain ⟨r, m, h1, h2, h3⟩ := this.1 hp
    have := h1 ()
    rw [hm] at this
    have e := hrel h2
    rw [← Except.ok.inj this] at e
    exact ⟨hp, e ▸ h3⟩
  · obtain ⟨e, he⟩ := this.2 hp
    have := he ()
    rw [hm] at this
    cases this

end Verif.CoCircom
