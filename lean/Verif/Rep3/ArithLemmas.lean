import Verif.Rep3.Arith
import Verif.Rep3.StateLemmas
import Verif.Spec.Sharing
import Mathlib.Tactic.LinearCombination
import Mathlib.Tactic.FieldSimp

/-!
# Lemmas about the arithmetic protocols
-/

namespace Verif

open PartyID

namespace Share
variable {F : Type}
@[simp] theorem add_a [Add F] (x y : Share F) : (x + y).a = x.a + y.a := rfl
@[simp] theorem add_b [Add F] (x y : Share F) : (x + y).b = x.b + y.b := rfl
@[simp] theorem sub_a [Sub F] (x y : Share F) : (x - y).a = x.a - y.a := rfl
@[simp] theorem sub_b [Sub F] (x y : Share F) : (x - y).b = x.b - y.b := rfl
@[simp] theorem neg_a [Neg F] (x : Share F) : (-x).a = -x.a := rfl
@[simp] theorem neg_b [Neg F] (x : Share F) : (-x).b = -x.b := rfl
@[simp] theorem scale_a [Mul F] (x : Share F) (c : F) : (x.scale c).a = x.a * c := rfl
@[simp] theorem scale_b [Mul F] (x : Share F) (c : F) : (x.scale c).b = x.b * c := rfl
end Share

section IsShareLemmas

variable {G : Type} [AddCommGroup G] {s t : PartyID → Share G} {v w : G}

theorem IsShare.b0 (h : IsShare s v) : (s ID0).b = (s ID2).a := h.1 ID0
theorem IsShare.b1 (h : IsShare s v) : (s ID1).b = (s ID0).a := h.1 ID1
theorem IsShare.b2 (h : IsShare s v) : (s ID2).b = (s ID1).a := h.1 ID2

theorem isShare_iff : IsShare s v ↔ ((s ID0).b = (s ID2).a ∧ (s ID1).b = (s ID0).a ∧
    (s ID2).b = (s ID1).a) ∧ (s ID0).a + (s ID1).a + (s ID2).a = v := by
  unfold IsShare
  rw [forall_iff]
  simp

theorem IsShare.add (hs : IsShare s v) (ht : IsShare t w) :
    IsShare (fun i => s i + t i) (v + w) := by
  refine ⟨fun i => by simp [hs.1 i, ht.1 i], ?_⟩
  rw [← hs.2, ← ht.2]; simp; abel

theorem IsShare.sub (hs : IsShare s v) (ht : IsShare t w) :
    IsShare (fun i => s i - t i) (v - w) := by
  refine ⟨fun i => by simp [hs.1 i, ht.1 i], ?_⟩
  rw [← hs.2, ← ht.2]; simp; abel

theorem IsShare.neg (hs : IsShare s v) : IsShare (fun i => - s i) (-v) := by
  refine ⟨fun i => by simp [hs.1 i], ?_⟩
  rw [← hs.2]; simp; abel

theorem IsShare.addPublic (hs : IsShare s v) (c : G) :
    IsShare (fun i => Rep3.addPublic (s i) c i) (v + c) := by
  rw [isShare_iff] at *
  simp only [Rep3.addPublic]
  obtain ⟨⟨h0, h1, h2⟩, h⟩ := hs
  refine ⟨⟨h0, by rw [h1], h2⟩, ?_⟩
  rw [← h]; abel

theorem IsShare.promote (c : G) : IsShare (fun i => Rep3.promoteToTrivialShare i c) c := by
  rw [isShare_iff]
  simp [Rep3.promoteToTrivialShare, Share.zeroShare]

theorem IsShare.promoteWithScalar (c r : G) : IsShare (fun i => Share.promoteWithScalar c r i) c := by
  rw [isShare_iff]
  simp [Share.promoteWithScalar]

theorem IsShare.zero : IsShare (fun _ => (Share.zeroShare : Share G)) 0 := by
  simp [isShare_iff, Share.zeroShare]

/-- Shares with these first components, replicated. -/
def replicate (x : PartyID → G) : PartyID → Share G := fun i => ⟨x i, x i.prev⟩

theorem isShare_replicate {x : PartyID → G} (h : x ID0 + x ID1 + x ID2 = v) :
    IsShare (replicate x) v := ⟨fun _ => rfl, h⟩

theorem isShare_mk {x : PartyID → G} (h : x ID0 + x ID1 + x ID2 = v) :
    IsShare (fun i => ⟨x i, x i.prev⟩) v := ⟨fun _ => rfl, h⟩

theorem isShare_eq_replicate (h : IsShare s v) : s = replicate fun i => (s i).a := by
  funext i
  have := h.1 i
  cases hs : s i
  simp_all [replicate]

end IsShareLemmas

section Ring

variable {F : Type} [CommRing F] {s t : PartyID → Share F} {v w : F}

theorem IsShare.scale (hs : IsShare s v) (c : F) : IsShare (fun i => (s i).scale c) (v * c) := by
  refine ⟨fun i => by simp [hs.1 i], ?_⟩
  rw [← hs.2]; simp; ring

theorem IsShare.localMul (hs : IsShare s v) (ht : IsShare t w) :
    (s ID0).localMul (t ID0) + (s ID1).localMul (t ID1) + (s ID2).localMul (t ID2) = v * w := by
  rw [← hs.2, ← ht.2]
  simp only [Share.localMul, hs.b0, hs.b1, hs.b2, ht.b0, ht.b1, ht.b2]
  ring

end Ring

section Lists

variable {ι α β γ : Type}

/-- Columns of a zip are zips of columns. -/
theorem zip_columns (l : List (ι → α)) (l' : List (ι → β)) (i : ι) :
    (l.map (· i)).zip (l'.map (· i)) =
      (List.zipWith (fun x y i => (x i, y i)) l l').map (· i) := by
  induction l generalizing l' with
  | nil => simp
  | cons x xs ih => cases l' <;> simp [ih]

theorem zipWith_columns (f : ι → α → β → γ) (l : List (ι → α)) (l' : List (ι → β)) (i : ι) :
    List.zipWith (f i) (l.map (· i)) (l'.map (· i)) =
      (List.zipWith (fun x y i => f i (x i) (y i)) l l').map (· i) := by
  induction l generalizing l' with
  | nil => simp
  | cons x xs ih => cases l' <;> simp [ih]

theorem forall₂_zipWith {α' β' γ' : Type} {P : α → α' → Prop} {Q : β → β' → Prop}
    {T : γ → γ' → Prop} {f : α → β → γ} {f' : α' → β' → γ'}
    (h : ∀ a a' b b', P a a' → Q b b' → T (f a b) (f' a' b')) {l l' m m'}
    (h1 : List.Forall₂ P l l') (h2 : List.Forall₂ Q m m') :
    List.Forall₂ T (List.zipWith f l m) (List.zipWith f' l' m') := by
  induction h1 generalizing m m' with
  | nil => simp
  | cons hp _ ih =>
    cases h2 with
    | nil => simp
    | cons hq hr => exact .cons (h _ _ _ _ hp hq) (ih hr)

end Lists

namespace Rep3

variable {R M F : Type} {ty : A2BType}

section Comm

variable [CommRing F] [Sample R F] [Codec M (List F)] {st : PartyID → Rep3State R}

theorem spec_maskElem (hst : Corr ty st) :
    Spec (M := M) (fun _ => maskElem (F := F)) st
      (fun m st' => m ID0 + m ID1 + m ID2 = 0 ∧ Corr ty st') := spec_masking hst

omit [CommRing F] [Sample R F] [Codec M (List F)] in
theorem spec_stateId (hst : Corr ty st) :
    Spec (M := M) (fun _ => stateId) st (fun r s => (r = fun i => i) ∧ s = st) := by
  refine Spec.modifyGet (f := fun _ (s : Rep3State R) => (s.id, s)) ?_
  simp [hst.id]

theorem spec_mul {a b : PartyID → Share F} {x y : F} (ha : IsShare a x) (hb : IsShare b y)
    (hst : Corr ty st) :
    Spec (M := M) (fun i => mul (a i) (b i)) st (fun r st' => IsShare r (x * y) ∧ Corr ty st') := by
  refine Spec.bind (spec_maskElem hst) ?_
  rintro m st' ⟨hm, hst'⟩
  refine Spec.bind spec_reshare ?_
  rintro v st'' ⟨rfl, rfl⟩
  refine Spec.pure ⟨isShare_mk (x := fun i => (a i).localMul (b i) + m i) ?_, hst'⟩
  linear_combination ha.localMul hb + hm

theorem spec_reshareVec {x : List (PartyID → F)} :
    Spec (M := M) (fun i => reshareVec (x.map (· i))) st (fun r st' =>
      (r = fun i => (x.map replicate).map (· i)) ∧ st' = st) := by
  refine Spec.bind spec_reshareMany ?_
  rintro v st'' ⟨rfl, rfl⟩
  have : (fun i : PartyID => if (x.map (· i.prev)).length ≠ (x.map (· i)).length then
      (MPC.bail "During execution of mul_vec in MPC: Invalid number of elements received" :
        Rep3M R M (List (Share F)))
      else pure (List.zipWith Share.mk (x.map (· i)) (x.map (· i.prev)))) =
      fun i => pure ((x.map replicate).map (· i)) := by
    funext i
    simp only [List.length_map, ne_eq, not_true_eq_false, if_false]
    congr 1
    rw [List.zipWith_map, List.zipWith_self, List.map_map]
    rfl
  rw [this]
  exact Spec.pure ⟨rfl, rfl⟩

/-- Elementwise local computation with a fresh mask, over two vectors. -/
theorem spec_maskedZip {f : PartyID → Share F × Share F → F} {g : F → F → F}
    {a b : List (PartyID → Share F)} {x y : List F}
    (ha : List.Forall₂ IsShare a x) (hb : List.Forall₂ IsShare b y)
    (hf : ∀ s t v w, IsShare s v → IsShare t w →
      f ID0 (s ID0, t ID0) + f ID1 (s ID1, t ID1) + f ID2 (s ID2, t ID2) = g v w)
    (hst : Corr ty st) :
    Spec (M := M) (fun i => ((a.map (· i)).zip (b.map (· i))).mapM fun ab => do
        let m ← maskElem
        pure (f i ab + m)) st
      (fun r st' => (∃ rs : List (PartyID → F), (r = fun i => rs.map (· i)) ∧
        List.Forall₂ IsAdditive rs (List.zipWith g x y)) ∧ Corr ty st') := by
  simp only [zip_columns]
  refine (Spec.mapM (I := Corr ty) (P := fun x r => r ID0 + r ID1 + r ID2 =
    f ID0 (x ID0) + f ID1 (x ID1) + f ID2 (x ID2)) ?_ hst).mono ?_
  · intro p _ st hst
    refine Spec.bind (spec_maskElem hst) ?_
    rintro m st' ⟨hm, hst'⟩
    refine Spec.pure ⟨?_, hst'⟩
    linear_combination hm
  · rintro r st' ⟨rs, rfl, hrs, hst'⟩
    refine ⟨⟨rs, rfl, ?_⟩, hst'⟩
    clear hst hst'
    induction ha generalizing b y rs with
    | nil => simp at hrs; subst hrs; simp
    | cons h _ ih =>
      cases hb with
      | nil => simp at hrs; subst hrs; simp
      | cons h' hr =>
        simp only [List.zipWith_cons_cons] at hrs ⊢
        cases hrs with
        | cons e er => exact .cons (e.trans (hf _ _ _ _ h h')) (ih hr _ er)

theorem isShares_replicate {rs : List (PartyID → F)} {vs : List F}
    (h : List.Forall₂ IsAdditive rs vs) : IsShares (fun i => (rs.map replicate).map (· i)) vs := by
  refine ⟨_, rfl, ?_⟩
  rw [List.forall₂_map_left_iff]
  exact h.imp fun a b hab => isShare_replicate hab

theorem spec_mulVec {a b : PartyID → List (Share F)} {x y : List F} (ha : IsShares a x)
    (hb : IsShares b y) (hst : Corr ty st) :
    Spec (M := M) (fun i => mulVec (a i) (b i)) st
      (fun r st' => IsShares r (List.zipWith (· * ·) x y) ∧ Corr ty st') := by
  obtain ⟨a, rfl, ha⟩ := ha
  obtain ⟨b, rfl, hb⟩ := hb
  refine Spec.bind (spec_maskedZip (f := fun _ ab => ab.1.localMul ab.2) ha hb
    (fun s t v w h h' => h.localMul h') hst) ?_
  rintro r st' ⟨⟨rs, rfl, hrs⟩, hst'⟩
  refine spec_reshareVec.mono ?_
  rintro r st'' ⟨rfl, rfl⟩
  exact ⟨isShares_replicate hrs, hst'⟩

theorem spec_cmuxVec {c : PartyID → Share F} {a b : PartyID → List (Share F)} {z : F} {x y : List F}
    (hc : IsShare c z) (ha : IsShares a x) (hb : IsShares b y) (hst : Corr ty st) :
    Spec (M := M) (fun i => cmuxVec (c i) (a i) (b i)) st
      (fun r st' => IsShares r (List.zipWith (fun t f => (t - f) * z + f) x y) ∧ Corr ty st') := by
  obtain ⟨a, rfl, ha⟩ := ha
  obtain ⟨b, rfl, hb⟩ := hb
  refine Spec.bind (spec_maskedZip
    (f := fun i tf => (sub tf.1 tf.2).localMul (c i) + tf.2.a) (g := fun t f => (t - f) * z + f)
    ha hb ?_ hst) ?_
  · intro s t v w h h'
    have h1 := (h.sub h').localMul hc
    have h2 := h'.2
    simp only [sub] at h1 ⊢
    linear_combination h1 + h2
  rintro r st' ⟨⟨rs, rfl, hrs⟩, hst'⟩
  refine spec_reshareVec.mono ?_
  rintro r st'' ⟨rfl, rfl⟩
  exact ⟨isShares_replicate hrs, hst'⟩

theorem spec_open {a : PartyID → Share F} {x : F} (ha : IsShare a x) :
    Spec (M := M) (fun i => openShare (a i)) st (fun r st' => (r = fun _ => x) ∧ st' = st) := by
  refine Spec.bind spec_reshare ?_
  rintro v st'' ⟨rfl, rfl⟩
  refine Spec.pure ⟨?_, rfl⟩
  funext i
  have := ha.2
  cases i <;> simp [ha.b0, ha.b1, ha.b2, ← this] <;> ring

theorem spec_openVec {a : PartyID → List (Share F)} {x : List F} (ha : IsShares a x) :
    Spec (M := M) (fun i => openVec (a i)) st (fun r st' => (r = fun _ => x) ∧ st' = st) := by
  obtain ⟨l, rfl, hl⟩ := ha
  refine Spec.bind spec_reshareMany ?_
  rintro v st'' ⟨rfl, rfl⟩
  refine Spec.pure ⟨?_, rfl⟩
  funext i
  simp only [List.map_map, List.zipWith_map, List.zipWith_self]
  induction hl with
  | nil => rfl
  | @cons s v _ _ h _ ih =>
    simp only [List.map_cons, ih, List.cons.injEq, and_true, Function.comp]
    refine ⟨?_, ih⟩
    have := h.2
    cases i <;> simp [h.b0, h.b1, h.b2, ← this] <;> ring

theorem spec_mulOpen {a b : PartyID → Share F} {x y : F} (ha : IsShare a x) (hb : IsShare b y)
    (hst : Corr ty st) :
    Spec (M := M) (fun i => mulOpen (a i) (b i)) st
      (fun r st' => (r = fun _ => x * y) ∧ Corr ty st') := by
  refine Spec.bind (spec_maskElem hst) ?_
  rintro m st' ⟨hm, hst'⟩
  refine Spec.bind spec_broadcast ?_
  rintro v st'' ⟨rfl, rfl⟩
  refine Spec.pure ⟨?_, hst'⟩
  funext i
  have := ha.localMul hb
  cases i <;> simp <;> linear_combination this + hm

theorem addBoth_eq (a b c : List F) (h : b.length = a.length) (h' : c.length = a.length) :
    addBoth a b c = List.zipWith (· + ·) a (List.zipWith (· + ·) b c) := by
  induction a generalizing b c with
  | nil => simp [addBoth]
  | cons x xs ih =>
    cases b with
    | nil => simp at h
    | cons y ys => cases c with
      | nil => simp at h'
      | cons z zs => simp only [addBoth, List.zipWith_cons_cons]; rw [ih] <;> simp_all

theorem spec_mulOpenVec {a b : PartyID → List (Share F)} {x y : List F} (ha : IsShares a x)
    (hb : IsShares b y) (hst : Corr ty st) :
    Spec (M := M) (fun i => mulOpenVec (a i) (b i)) st
      (fun r st' => (r = fun _ => List.zipWith (· * ·) x y) ∧ Corr ty st') := by
  obtain ⟨a, rfl, ha⟩ := ha
  obtain ⟨b, rfl, hb⟩ := hb
  refine Spec.bind (spec_maskedZip (f := fun _ ab => ab.1.localMul ab.2) ha hb
    (fun s t v w h h' => h.localMul h') hst) ?_
  rintro r st' ⟨⟨rs, rfl, hrs⟩, hst'⟩
  refine Spec.bind spec_broadcastMany ?_
  rintro v st'' ⟨rfl, rfl⟩
  refine Spec.pure ⟨?_, hst'⟩
  funext i
  rw [addBoth_eq _ _ _ (by simp) (by simp)]
  simp only [List.zipWith_map, List.zipWith_self]
  clear hst hst' ha hb
  generalize List.zipWith (· * ·) x y = vs at hrs
  induction hrs with
  | nil => rfl
  | cons h _ ih =>
    simp only [List.zipWith_map_right, List.zipWith_self, List.map_cons, List.cons.injEq] at ih ⊢
    refine ⟨?_, ih⟩
    rw [← h]
    cases i <;> simp <;> ring

theorem spec_rand (hst : Corr ty st) :
    Spec (M := M) (fun _ => rand (F := F)) st
      (fun r st' => (∃ v, IsShare r v) ∧ Corr ty st') := by
  refine Spec.bind (spec_randomPair hst) ?_
  rintro v st' ⟨⟨x, rfl⟩, hst'⟩
  exact Spec.pure ⟨⟨_, isShare_mk rfl⟩, hst'⟩

theorem spec_cmux {c a b : PartyID → Share F} {z x y : F} (hc : IsShare c z) (ha : IsShare a x)
    (hb : IsShare b y) (hst : Corr ty st) :
    Spec (M := M) (fun i => cmux (c i) (a i) (b i)) st
      (fun r st' => IsShare r (y + z * (x - y)) ∧ Corr ty st') := by
  refine Spec.bind (spec_mul hc (ha.sub hb) hst) ?_
  rintro d st' ⟨hd, hst'⟩
  exact Spec.pure ⟨hb.add hd, hst'⟩

theorem spec_addMul {a b c : PartyID → Share F} {x y z : F} (ha : IsShare a x) (hb : IsShare b y)
    (hc : IsShare c z) (hst : Corr ty st) :
    Spec (M := M) (fun i => addMul (a i) (b i) (c i)) st
      (fun r st' => IsShare r (x + y * z) ∧ Corr ty st') := by
  refine Spec.bind (spec_mul hc hb hst) ?_
  rintro d st' ⟨hd, hst'⟩
  refine Spec.pure ⟨?_, hst'⟩
  rw [mul_comm y z]
  exact ha.add hd

theorem spec_powLoop (n : Nat) {a b : PartyID → Share F} {x y : F} (ha : IsShare a x)
    (hb : IsShare b y) (hst : Corr ty st) :
    Spec (M := M) (fun i => powLoop n (a i) (b i)) st
      (fun r st' => IsShare r (x * y ^ n) ∧ Corr ty st') := by
  induction n using Nat.strongRecOn generalizing a b x y st with
  | _ n ih =>
    unfold powLoop
    by_cases h0 : n = 0
    · simp only [h0, if_true]
      exact Spec.pure ⟨by simpa using ha, hst⟩
    · simp only [h0, if_false]
      by_cases h1 : n % 2 = 1
      · simp only [h1, if_true]
        refine Spec.bind (spec_mul ha hb hst) ?_
        rintro r st₁ ⟨hr, hst₁⟩
        refine Spec.bind (spec_mul hb hb hst₁) ?_
        rintro r' st₂ ⟨hr', hst₂⟩
        refine (ih (n / 2) (by omega) hr hr' hst₂).mono ?_
        rintro q st₃ ⟨hq, hst₃⟩
        refine ⟨?_, hst₃⟩
        have e : x * y ^ n = x * y * (y * y) ^ (n / 2) := by
          have hn : n = 2 * (n / 2) + 1 := by omega
          conv_lhs => rw [hn]
          rw [pow_succ, pow_mul, pow_two]; ring
        rwa [e]
      · simp only [h1, if_false]
        refine Spec.bind (Q₁ := fun r s => r = a ∧ s = st) (Spec.pure ⟨rfl, rfl⟩) ?_
        rintro r st₁ ⟨rfl, rfl⟩
        refine Spec.bind (spec_mul hb hb hst) ?_
        rintro r' st₂ ⟨hr', hst₂⟩
        refine (ih (n / 2) (by omega) ha hr' hst₂).mono ?_
        rintro q st₃ ⟨hq, hst₃⟩
        refine ⟨?_, hst₃⟩
        have e : x * y ^ n = x * (y * y) ^ (n / 2) := by
          have hn : n = 2 * (n / 2) := by omega
          conv_lhs => rw [hn]
          rw [pow_mul, pow_two]
        rwa [e]

theorem spec_powPublic (n : Nat) {a : PartyID → Share F} {x : F} (ha : IsShare a x)
    (hst : Corr ty st) :
    Spec (M := M) (fun i => powPublic (a i) n) st
      (fun r st' => IsShare r (x ^ n) ∧ Corr ty st') := by
  refine Spec.bind (spec_stateId hst) ?_
  rintro v st' ⟨rfl, rfl⟩
  have := spec_powLoop (M := M) n (IsShare.promote (1 : F)) ha hst
  simpa using this

theorem spec_arithmeticXor {a b : PartyID → Share F} {x y : F} (ha : IsShare a x)
    (hb : IsShare b y) (hst : Corr ty st) :
    Spec (M := M) (fun i => arithmeticXor (a i) (b i)) st
      (fun r st' => IsShare r (x + y - 2 * (x * y)) ∧ Corr ty st') := by
  refine Spec.bind (spec_maskElem hst) ?_
  rintro m st' ⟨hm, hst'⟩
  refine Spec.bind spec_reshare ?_
  rintro v st'' ⟨rfl, rfl⟩
  refine Spec.pure ⟨isShare_mk (x := fun i => (a i).a + (b i).a -
    ((a i).localMul (b i) + m i + ((a i).localMul (b i) + m i))) ?_, hst'⟩
  linear_combination ha.2 + hb.2 - 2 * ha.localMul hb - 2 * hm

theorem spec_arithmeticXorMany {a b : PartyID → List (Share F)} {x y : List F} (ha : IsShares a x)
    (hb : IsShares b y) (hst : Corr ty st) :
    Spec (M := M) (fun i => arithmeticXorMany (a i) (b i)) st
      (fun r st' => IsShares r (List.zipWith (fun x y => x + y - 2 * (x * y)) x y) ∧ Corr ty st') := by
  obtain ⟨a, rfl, ha⟩ := ha
  obtain ⟨b, rfl, hb⟩ := hb
  unfold arithmeticXorMany
  simp only [zip_columns]
  refine Spec.bind (Spec.mapM (I := Corr ty) (P := fun (p : PartyID → Share F × Share F) r =>
    ∀ x y, IsShare (fun i => (p i).1) x → IsShare (fun i => (p i).2) y →
      IsAdditive r (x + y - 2 * (x * y))) ?_ hst) ?_
  · intro p _ st hst
    refine Spec.bind (spec_maskElem hst) ?_
    rintro m st' ⟨hm, hst'⟩
    refine Spec.pure ⟨fun x y hx hy => ?_, hst'⟩
    have h1 := hx.2
    have h2 := hy.2
    have h3 := hx.localMul hy
    simp only [IsAdditive]
    linear_combination h1 + h2 - 2 * h3 - 2 * hm
  · rintro r st' ⟨rs, rfl, hrs, hst'⟩
    refine Spec.bind spec_reshareMany ?_
    rintro v st'' ⟨rfl, rfl⟩
    refine Spec.pure ⟨?_, hst'⟩
    have e : (fun i : PartyID => List.zipWith Share.mk (rs.map (· i)) (rs.map (· i.prev))) =
        fun i => (rs.map replicate).map (· i) := by
      funext i
      rw [List.zipWith_map, List.zipWith_self, List.map_map]
      rfl
    rw [e]
    refine isShares_replicate ?_
    clear hst hst' e
    induction ha generalizing b y rs with
    | nil => simp at hrs; subst hrs; simp
    | cons h _ ih =>
      cases hb with
      | nil => simp at hrs; subst hrs; simp
      | cons h' hr =>
        simp only [List.zipWith_cons_cons] at hrs ⊢
        cases hrs with
        | cons e er => exact .cons (e _ _ h h') (ih _ hr _ er)

end Comm

section Field

variable [Field F] [DecidableEq F] [Sample R F] [Codec M (List F)] {st : PartyID → Rep3State R}

/-- The value of the sharing that `rand` draws from the given states: the sum of one draw from each
party's own generator. -/
def randValue (F : Type) [Sample R F] [Add F] (st : PartyID → Rep3State R) : F :=
  (Sample.sample (st ID0).rngs.rand.rng1).1 + (Sample.sample (st ID1).rngs.rand.rng1).1 +
    (Sample.sample (st ID2).rngs.rand.rng1).1

/-- The states after one draw from both pairwise generators. -/
def afterRand (F : Type) [Sample R F] (st : PartyID → Rep3State R) : PartyID → Rep3State R :=
  fun i => setRand (st i) (Rep3Rand.randomPair (α := F) (st i).rngs.rand).2

omit [Field F] [DecidableEq F] [Codec M (List F)] in
theorem Corr.afterRand (hst : Corr ty st) : Corr ty (afterRand F st) :=
  hst.setRand fun i => by simp [Rep3Rand.randomPair, hst.rand i]

omit [DecidableEq F] [Codec M (List F)] in
theorem spec_rand' (hst : Corr ty st) :
    Spec (M := M) (fun _ => rand (F := F)) st
      (fun r st' => IsShare r (randValue F st) ∧ st' = afterRand F st) := by
  refine Spec.bind (Q₁ := fun r s => (r = fun i =>
      ((Sample.sample (st i).rngs.rand.rng1).1, (Sample.sample (st i.prev).rngs.rand.rng1).1)) ∧
      s = afterRand F st)
    (spec_withRand (f := fun _ => Rep3Rand.randomPair) ⟨?_, rfl⟩) ?_
  · funext i; simp [Rep3Rand.randomPair, hst.rand i]
  rintro v st' ⟨rfl, rfl⟩
  exact Spec.pure ⟨isShare_mk (x := fun i => (Sample.sample (st i).rngs.rand.rng1).1) rfl, rfl⟩

theorem spec_inv {a : PartyID → Share F} {x : F} (ha : IsShare a x) (hst : Corr ty st) :
    SpecE (M := M) (fun i => inv (a i)) st
      (AllOrNone (x * randValue F st = 0)
        (fun r st' => x * randValue F st ≠ 0 ∧ IsShare r x⁻¹ ∧ Corr ty st')) := by
  refine SpecE.bind (spec_rand' hst) ?_
  rintro r st₁ ⟨hr, rfl⟩
  refine SpecE.bind (spec_mulOpen ha hr (Corr.afterRand hst)) ?_
  rintro y st₂ ⟨rfl, hst₂⟩
  by_cases h0 : x * randValue F st = 0
  · simp only [h0, if_true]
    exact SpecE.bail (Or.inl ⟨_, fun _ => rfl, trivial⟩)
  · simp only [h0, if_false]
    refine SpecE.pure (Or.inr ⟨fun i => (r i).scale (x * randValue F st)⁻¹, st₂, fun _ => rfl, h0, ?_, hst₂⟩)
    have h1 := hr.scale (x * randValue F st)⁻¹
    have hx : x ≠ 0 := left_ne_zero_of_mul h0
    have hr0 : randValue F st ≠ 0 := right_ne_zero_of_mul h0
    convert h1 using 1
    field_simp

theorem spec_div {a b : PartyID → Share F} {x y : F} (ha : IsShare a x) (hb : IsShare b y)
    (hst : Corr ty st) :
    SpecE (M := M) (fun i => div (a i) (b i)) st
      (AllOrNone (y * randValue F st = 0)
        (fun r st' => y * randValue F st ≠ 0 ∧ IsShare r (x / y) ∧ Corr ty st')) := by
  refine SpecE.bindAll (spec_inv hb hst) ?_ (fun e h => Or.inl ⟨e, fun _ => rfl, h⟩)
  rintro v st' ⟨h0, hv, hst'⟩
  refine (spec_mul ha hv hst').specE.mono ?_
  rintro r ⟨v, st'', hr, h1, h2⟩
  exact Or.inr ⟨v, st'', hr, h0, by rwa [div_eq_mul_inv], h2⟩

theorem spec_divPublicByShared {b : PartyID → Share F} {x y : F} (hb : IsShare b y)
    (hst : Corr ty st) :
    SpecE (M := M) (fun i => divPublicByShared x (b i)) st
      (AllOrNone (y * randValue F st = 0)
        (fun r st' => y * randValue F st ≠ 0 ∧ IsShare r (x / y) ∧ Corr ty st')) := by
  refine SpecE.bindAll (spec_inv hb hst) ?_ (fun e h => Or.inl ⟨e, fun _ => rfl, h⟩)
  rintro v st' ⟨h0, hv, hst'⟩
  refine SpecE.pure (Or.inr ⟨fun i => mulPublic (v i) x, st', fun _ => rfl, h0, ?_, hst'⟩)
  have := hv.scale x
  rw [div_eq_mul_inv, mul_comm x]
  exact this

/-- The values of `n` successive `rand` calls. -/
def randValues (F : Type) [Sample R F] [Add F] : Nat → (PartyID → Rep3State R) → List F
  | 0, _ => []
  | n + 1, st => randValue F st :: randValues F n (afterRand F st)

omit [DecidableEq F] [Codec M (List F)] in
@[simp] theorem randValues_length (n : Nat) (st : PartyID → Rep3State R) :
    (randValues F n st).length = n := by
  induction n generalizing st with
  | zero => rfl
  | succ n ih => simp [randValues, ih]

omit [Field F] [DecidableEq F] [Sample R F] [Codec M (List F)] in
theorem mapM_range_const {α : Type} (f : Rep3M R M α) (n k : Nat) :
    (List.range' k (n + 1)).mapM (fun _ => f) =
      (f >>= fun x => (List.range' k n).mapM (fun _ => f) >>= fun xs => pure (x :: xs)) := by
  have h : ∀ m k k', (List.range' k m).mapM (fun _ => f) = (List.range' k' m).mapM (fun _ => f) := by
    intro m
    induction m with
    | zero => intro k k'; rfl
    | succ m ih =>
      intro k k'
      simp only [List.range'_succ, List.mapM_cons]
      rw [ih (k + 1) (k' + 1)]
  simp only [List.range'_succ, List.mapM_cons]
  rw [h n (k + 1) k]

theorem isShares_cons {G : Type} [AddCommGroup G] {s : PartyID → Share G}
    {ss : PartyID → List (Share G)} {v : G} {vs : List G} (h : IsShare s v) (hs : IsShares ss vs) :
    IsShares (fun i => s i :: ss i) (v :: vs) := by
  obtain ⟨l, rfl, hl⟩ := hs
  exact ⟨s :: l, by simp, .cons h hl⟩

theorem isShares_nil {G : Type} [AddCommGroup G] :
    IsShares (fun _ => ([] : List (Share G))) [] := ⟨[], rfl, .nil⟩

omit [DecidableEq F] in
theorem spec_rands (n : Nat) (hst : Corr ty st) :
    Spec (M := M) (fun _ => (List.range n).mapM fun (_ : Nat) => (rand (F := F) : Rep3M R M (Share F))) st
      (fun r st' => IsShares r (randValues F n st) ∧ Corr ty st') := by
  rw [List.range_eq_range']
  induction n generalizing st with
  | zero => exact Spec.pure ⟨isShares_nil, hst⟩
  | succ n ih =>
    rw [mapM_range_const]
    refine Spec.bind (spec_rand' hst) ?_
    rintro r _ ⟨hr, rfl⟩
    refine Spec.bind (ih (Corr.afterRand hst)) ?_
    rintro rs st' ⟨hrs, hst'⟩
    exact Spec.pure ⟨isShares_cons hr hrs, hst'⟩

theorem spec_invVec {a : PartyID → List (Share F)} {x : List F} (ha : IsShares a x)
    (hst : Corr ty st) :
    SpecE (M := M) (fun i => invVec (a i)) st
      (AllOrNone (0 ∈ List.zipWith (· * ·) x (randValues F x.length st))
        (fun r st' => 0 ∉ List.zipWith (· * ·) x (randValues F x.length st) ∧
          IsShares r (x.map (·⁻¹)) ∧ Corr ty st')) := by
  have hlen : ∀ i, (a i).length = x.length := by
    obtain ⟨l, rfl, hl⟩ := ha
    intro i; simpa using hl.length_eq
  simp only [invVec, hlen]
  refine SpecE.bind (spec_rands x.length hst) ?_
  rintro r st₁ ⟨hr, hst₁⟩
  refine SpecE.bind (spec_mulOpenVec ha hr hst₁) ?_
  rintro y st₂ ⟨rfl, hst₂⟩
  by_cases h0 : 0 ∈ List.zipWith (· * ·) x (randValues F x.length st)
  · have h1 : (List.zipWith (· * ·) x (randValues F x.length st)).any (· = 0) = true := by
      simpa using h0
    simp only [h1, if_true]
    exact SpecE.bail (Or.inl ⟨_, fun _ => rfl, h0⟩)
  · have h1 : (List.zipWith (· * ·) x (randValues F x.length st)).any (· = 0) = false := by
      simp only [List.any_eq_false, decide_eq_true_eq]
      rintro y hy rfl
      exact h0 hy
    simp only [h1]
    refine SpecE.pure (Or.inr ⟨fun i => List.zipWith (fun (r : Share F) y => r.scale y⁻¹) (r i)
      (List.zipWith (· * ·) x (randValues F x.length st)), st₂, fun _ => rfl, h0, ?_, hst₂⟩)
    have hl : (randValues F x.length st).length = x.length := by
      generalize x.length = n
      clear hst hlen hr h0 h1 ha
      induction n generalizing st with
      | zero => rfl
      | succ n ih => simp [randValues, ih]
    obtain ⟨l, rfl, hl'⟩ := hr
    generalize randValues F x.length st = rv at *
    refine ⟨List.zipWith (fun r y i => (r i).scale y⁻¹) l (List.zipWith (· * ·) x rv), ?_, ?_⟩
    · funext i
      rw [List.zipWith_map_left, List.map_zipWith]
    · clear hst hst₁ hst₂ ha hlen h1
      induction hl' generalizing x with
      | nil => cases x <;> simp_all
      | cons h _ ih =>
        cases x with
        | nil => simp
        | cons x xs =>
          simp only [List.zipWith_cons_cons, List.mem_cons, not_or, List.map_cons] at h0 ⊢
          refine .cons ?_ (ih h0.2 (by simpa using hl))
          have hx := left_ne_zero_of_mul (Ne.symm h0.1)
          have hr := right_ne_zero_of_mul (Ne.symm h0.1)
          convert h.scale _ using 1
          field_simp

theorem spec_sqrt [HasSqrt F] {a : PartyID → Share F} {x : F} (ha : IsShare a x)
    (hst : Corr ty st) :
    SpecE (M := M) (fun i => sqrt (a i)) st
      (AllOrNone ((¬ ∃ y, y * y = x) ∨ randValue F st = 0 ∨ randValue F (afterRand F st) = 0)
        (fun r st' => (∃ y, y * y = x ∧ IsShare r y) ∧ Corr ty st')) := by
  refine SpecE.bind (spec_rand' hst) ?_
  rintro r _ ⟨hr, rfl⟩
  refine SpecE.bind (spec_rand' (Corr.afterRand hst)) ?_
  rintro q _ ⟨hq, rfl⟩
  generalize randValue F st = u at *
  generalize randValue F (afterRand F st) = v at *
  refine SpecE.bind (spec_mul hr hr (Corr.afterRand (Corr.afterRand hst))) ?_
  rintro rr st₁ ⟨hrr, hst₁⟩
  refine SpecE.bind (spec_mulVec (isShares_cons hrr (isShares_cons hr isShares_nil))
    (isShares_cons ha (isShares_cons hq isShares_nil)) hst₁) ?_
  rintro m st₂ ⟨⟨l, rfl, hl⟩, hst₂⟩
  refine SpecE.bind spec_reshareMany ?_
  rintro c st₃ ⟨rfl, rfl⟩
  simp only [List.zipWith_cons_cons, List.zipWith_nil_right] at hl
  cases hl with
  | @cons m0 _ l _ h0 hl =>
  cases hl with
  | @cons m1 _ l _ h1 hl =>
  cases hl
  have e0 : ∀ i, (m0 i).a + (m0 i).b + (m0 i.prev).b = u * u * x := by
    intro i; rw [← h0.2]
    cases i <;> simp [h0.b0, h0.b1, h0.b2] <;> ring
  have e1 : ∀ i, (m1 i).a + (m1 i).b + (m1 i.prev).b = u * v := by
    intro i; rw [← h1.2]
    cases i <;> simp [h1.b0, h1.b1, h1.b2] <;> ring
  simp only [List.map_cons, List.map_nil, e0, e1]
  cases hs : HasSqrt.sqrt (u * u * x) with
  | none =>
    refine SpecE.bail (Or.inl ⟨_, fun _ => rfl, Or.inl ?_⟩)
    rintro ⟨y, rfl⟩
    exact HasSqrt.sqrt_none _ hs ⟨u * y, by ring⟩
  | some y =>
    have hy := HasSqrt.sqrt_some _ _ hs
    by_cases h : u * v = 0
    · simp only [h, if_true]
      exact SpecE.bail (Or.inl ⟨_, fun _ => rfl, Or.inr (mul_eq_zero.mp h)⟩)
    · simp only [h, if_false]
      refine SpecE.pure (Or.inr ⟨fun i => ((q i).scale (u * v)⁻¹).scale y, st₃, fun _ => rfl,
        ⟨_, ?_, (hq.scale (u * v)⁻¹).scale y⟩, hst₂⟩)
      have hu := left_ne_zero_of_mul h
      have hv := right_ne_zero_of_mul h
      field_simp
      linear_combination hy

end Field

section LocalMulVec

variable [CommRing F] [Sample R F] [SampleVec R F] [Codec M (List F)] {st : PartyID → Rep3State R}

omit [Sample R F] [Codec M (List F)] in
theorem spec_localMulVec {a b : PartyID → List (Share F)} {x y : List F} (ha : IsShares a x)
    (hb : IsShares b y) (hxy : x.length = y.length) (hst : Corr ty st) :
    Spec (M := M) (fun i => localMulVec (a i) (b i)) st
      (fun r st' => (∃ rs : List (PartyID → F), (r = fun i => rs.map (· i)) ∧
        List.Forall₂ IsAdditive rs (List.zipWith (· * ·) x y)) ∧ Corr ty st') := by
  obtain ⟨a, rfl, ha⟩ := ha
  obtain ⟨b, rfl, hb⟩ := hb
  have hla := ha.length_eq
  have hlb := hb.length_eq
  simp only [localMulVec, List.length_map, show a.length = b.length by omega, ne_eq,
    not_true_eq_false, if_false]
  -- the masks as party-indexed list
  let sv : PartyID → List F := fun i => (SampleVec.sampleVec (st i).rngs.rand.rng1 b.length).1
  have hsv : ∀ i, (sv i).length = b.length := fun i => SampleVec.length_eq _ _
  refine Spec.bind (Q₁ := fun r st' => (r = fun i => List.zipWith (· - ·) (sv i) (sv i.prev)) ∧
    Corr ty st') (spec_withRand (f := fun _ g => g.maskingFieldVec b.length) ⟨?_, hst.setRand ?_⟩) ?_
  · funext i; simp [Rep3Rand.maskingFieldVec, hst.rand i, sv]
  · intro i; simp [Rep3Rand.maskingFieldVec, hst.rand i]
  rintro m st' ⟨rfl, hst'⟩
  refine Spec.pure ⟨?_, hst'⟩
  -- make the masks a list of triples
  obtain ⟨ms, hms⟩ : ∃ ms : List (PartyID → F), ∀ i, sv i = ms.map (· i) := by
    refine ⟨(List.range b.length).map (fun k i => (sv i)[k]?.getD 0), fun i => ?_⟩
    apply List.ext_getElem
    · simp [hsv]
    · intro k h1 h2; simp [h1]
  simp only [hms]
  have hmsl : ms.length = b.length := by rw [← hsv ID0, hms]; simp
  refine ⟨List.zipWith (fun (ab : PartyID → Share F × Share F) m i =>
    (ab i).1.localMul (ab i).2 + (m i - m i.prev)) (List.zipWith (fun x y i => (x i, y i)) a b) ms,
    ?_, ?_⟩
  · funext i
    rw [zip_columns]
    rw [List.zipWith_map, List.zipWith_self, List.zipWith_map, List.map_zipWith]
  · clear hst hst' hms hsv sv
    induction ha generalizing b y ms with
    | nil => simp
    | cons h _ ih =>
      cases hb with
      | nil => simp
      | cons h' hr =>
        cases ms with
        | nil => simp at hmsl
        | cons m ms =>
          simp only [List.zipWith_cons_cons]
          refine .cons ?_ (ih (by simpa using hxy) _ hr (by simpa using hla) (by simpa using hlb) ms
            (by simpa using hmsl))
          have := h.localMul h'
          simp only [IsAdditive, ID0_prev, ID1_prev, ID2_prev]
          linear_combination this

end LocalMulVec



end Rep3

end Verif
