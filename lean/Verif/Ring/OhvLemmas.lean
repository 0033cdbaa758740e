import Verif.Ring.Ohv
import Verif.Ring.RingLemmas

/-!
# One-hot vectors: lemmas
-/

namespace Verif.Rep3.Ring

open PartyID

variable {R M : Type} {k : Nat} {ty : A2BType} {st : PartyID → Rep3State R}

/-! ### Packing -/

theorem setWidth_shl_getLsbD (b : BitVec 1) (n i : Nat) (hn : n < k) :
    (b.setWidth k <<< n).getLsbD i = (decide (i = n) && b.getLsbD 0) := by
  rw [BitVec.getLsbD_shiftLeft, BitVec.getLsbD_setWidth]
  by_cases h : i = n
  · subst h; simp [hn]; intro _; omega
  · by_cases h2 : i < n
    · simp [h2, h]
    · have : b.getLsbD (i - n) = false := BitVec.getLsbD_of_ge _ _ (by omega)
      simp [this, h]

theorem pack_fold (l : List (Share (BitVec 1))) (m : Nat) (hl : m + l.length ≤ k)
    (acc : Share (BitVec k)) (i : Nat) :
    let r := (l.zipIdx m).foldl (fun acc (bit : Share (BitVec 1) × Nat) =>
      (⟨acc.a ||| (bit.1.a.setWidth k <<< bit.2), acc.b ||| (bit.1.b.setWidth k <<< bit.2)⟩ :
        Share (BitVec k))) acc
    r.a.getLsbD i = (acc.a.getLsbD i || (decide (m ≤ i) && ((l[i - m]?).elim false fun s => s.a.getLsbD 0))) ∧
    r.b.getLsbD i = (acc.b.getLsbD i || (decide (m ≤ i) && ((l[i - m]?).elim false fun s => s.b.getLsbD 0))) := by
  induction l generalizing m acc with
  | nil => simp
  | cons x l ih =>
    simp only [List.length_cons] at hl
    simp only [List.zipIdx_cons, List.foldl_cons]
    obtain ⟨h1, h2⟩ := ih (m + 1) (by omega)
      ⟨acc.a ||| (x.a.setWidth k <<< m), acc.b ||| (x.b.setWidth k <<< m)⟩
    rw [h1, h2]
    simp only [BitVec.getLsbD_or, setWidth_shl_getLsbD _ _ _ (show m < k by omega)]
    by_cases h : i = m
    · subst h; simp
    · by_cases h3 : m ≤ i
      · obtain ⟨d, rfl⟩ : ∃ d, i = m + 1 + d := ⟨i - m - 1, by omega⟩
        have e1 : m + 1 + d - m = d + 1 := by omega
        have e2 : m + 1 + d - (m + 1) = d := by omega
        have e3 : ¬ (m + 1 + d = m) := by omega
        have e4 : m ≤ m + 1 + d := by omega
        simp [e1, e2, e3, e4]
      · have e5 : ¬ (m + 1 ≤ i) := by omega
        simp [h, h3, e5]

theorem pack_a (l : List (Share (BitVec 1))) (hl : l.length ≤ k) (i : Nat) :
    (pack k l).a.getLsbD i = ((l[i]?).elim false fun s => s.a.getLsbD 0) := by
  have := (pack_fold l 0 (k := k) (by omega) ⟨0#k, 0#k⟩ i).1
  simpa [pack] using this

theorem pack_b (l : List (Share (BitVec 1))) (hl : l.length ≤ k) (i : Nat) :
    (pack k l).b.getLsbD i = ((l[i]?).elim false fun s => s.b.getLsbD 0) := by
  have := (pack_fold l 0 (k := k) (by omega) ⟨0#k, 0#k⟩ i).2
  simpa [pack] using this

/-! ### The masked conjunction -/

section

variable [∀ w, Sample R (BitVec w)]

/-- What `and_pre_bit` adds to the mask. -/
def preBit (a : Share (BitVec k)) (b : Share (BitVec 1)) (m : BitVec k) : BitVec k :=
  let res := if b.a = 1#1 then m ^^^ a.a ^^^ a.b else m
  if b.b = 1#1 then res ^^^ a.a else res

theorem eq_one_iff (b : BitVec 1) : b = 1#1 ↔ b.getLsbD 0 = true := by
  revert b; decide

theorem preBit_getLsbD (a : Share (BitVec k)) (b : Share (BitVec 1)) (m : BitVec k) (i : Nat) :
    (preBit a b m).getLsbD i = ((m.getLsbD i ^^ (b.a.getLsbD 0 && (a.a.getLsbD i ^^ a.b.getLsbD i))) ^^
      (b.b.getLsbD 0 && a.a.getLsbD i)) := by
  simp only [preBit, eq_one_iff]
  cases b.a.getLsbD 0 <;> cases b.b.getLsbD 0 <;> simp

theorem spec_andPreBit {x : PartyID → Share (BitVec k)} {b : PartyID → Share (BitVec 1)} (hst : Corr ty st) :
    Spec (M := M) (fun i => andPreBit (x i) (b i)) st (fun r st' =>
      (∃ m : PartyID → BitVec k, r = fun i => preBit (x i) (b i) (m i ^^^ m i.prev)) ∧ Corr ty st') := by
  simp only [andPreBit, maskBits_eq]
  refine Spec.bind (Bin.spec_maskBits k hst) ?_
  rintro m st' ⟨⟨r, rfl⟩, hst'⟩
  exact Spec.pure ⟨⟨r, rfl⟩, hst'⟩

theorem bool_conj (a b m : PartyID → Bool) :
    ((((m ID0 ^^ m ID2) ^^ (b ID0 && (a ID0 ^^ a ID2))) ^^ (b ID2 && a ID0)) ^^
    (((m ID1 ^^ m ID0) ^^ (b ID1 && (a ID1 ^^ a ID0))) ^^ (b ID0 && a ID1)) ^^
    (((m ID2 ^^ m ID1) ^^ (b ID2 && (a ID2 ^^ a ID1))) ^^ (b ID1 && a ID2))) =
    ((a ID0 ^^ a ID1 ^^ a ID2) && (b ID0 ^^ b ID1 ^^ b ID2)) := by
  generalize a ID0 = a0; generalize a ID1 = a1; generalize a ID2 = a2
  generalize b ID0 = b0; generalize b ID1 = b1; generalize b ID2 = b2
  generalize m ID0 = m0; generalize m ID1 = m1; generalize m ID2 = m2
  revert a0 a1 a2 b0 b1 b2 m0 m1 m2
  decide

theorem ofBool_getLsbD (v : BitVec 1) : BitVec.ofBool (v.getLsbD 0) = v := by
  revert v; decide

/-- Unpacking the reshared masked conjunction gives sharings of the conjunctions. -/
theorem isBShares_unpack {x : PartyID → List (Share (BitVec 1))} {vs : List (BitVec 1)}
    {b : PartyID → Share (BitVec 1)} {c : BitVec 1} (hx : IsBShares x vs) (hb : IsBShare b c)
    (hl : vs.length ≤ k) (m : PartyID → BitVec k) :
    IsBShares (fun i => unpack ⟨preBit (pack k (x i)) (b i) (m i ^^^ m i.prev),
      preBit (pack k (x i.prev)) (b i.prev) (m i.prev ^^^ m i.prev.prev)⟩ vs.length)
      (vs.map (· &&& c)) := by
  have hlen := Cols.length hx
  refine Cols.of_get vs.length (fun i => by simp [unpack]) (by simp) ?_
  intro n hn
  obtain ⟨y, hy, hP⟩ := Cols.get hx (k := n) (v := vs[n]) (by simp [hn])
  simp only [unpack, List.getElem_map, List.getElem_range, Share.getBit]
  refine isBShare_mk (x := fun i => BitVec.ofBool
    ((preBit (pack k (x i)) (b i) (m i ^^^ m i.prev)).getLsbD n)) ?_
  have ha := fun i => pack_a (x i) (k := k) (by rw [hlen]; exact hl) n
  have hb' := fun i => pack_b (x i) (k := k) (by rw [hlen]; exact hl) n
  simp only [preBit_getLsbD, BitVec.getLsbD_xor, ha, hb', hy, Option.elim_some]
  simp only [hP.b0, hP.b1, hP.b2, hb.b0, hb.b1, hb.b2, ID0_prev, ID1_prev, ID2_prev]
  rw [ofBool_xor3]
  have := bool_conj (fun i => (y i).a.getLsbD 0) (fun i => (b i).a.getLsbD 0) (fun i => (m i).getLsbD n)
  rw [this, ← hP.2, ← hb.2, ← ofBool_getLsbD (_ &&& _)]
  simp

variable [∀ w, UintCodec M w]

theorem spec_packAndOne {x : PartyID → List (Share (BitVec 1))} {vs : List (BitVec 1)}
    {b : PartyID → Share (BitVec 1)} {c : BitVec 1} (hx : IsBShares x vs) (hb : IsBShare b c)
    (hl : vs.length ≤ k) (hst : Corr ty st) :
    Spec (M := M) (fun i => packAndOne k (x i) (b i)) st (fun r st' =>
      IsBShares r (vs.map (· &&& c)) ∧ Corr ty st') := by
  refine Spec.bind (spec_andPreBit hst) ?_
  rintro r st' ⟨⟨m, rfl⟩, hst'⟩
  refine Spec.bind spec_reshare ?_
  rintro z st'' ⟨rfl, rfl⟩
  refine Spec.pure ⟨?_, hst'⟩
  have := isBShares_unpack hx hb hl m
  simpa only [Cols.length hx] using this

/-! ### Chunks -/

theorem chunksAux_nil {α : Type} (n fuel : Nat) : chunksAux n fuel ([] : List α) = [] := by
  cases fuel <;> rfl

theorem Cols.chunksAux {α α' : Type} {P : (PartyID → α) → α' → Prop} (n fuel : Nat)
    {s : PartyID → List α} {vs : List α'} (h : Cols P s vs) :
    Cols (Cols P) (fun i => chunksAux n fuel (s i)) (chunksAux n fuel vs) := by
  induction fuel generalizing s vs with
  | zero => exact Cols.nil
  | succ fuel ih =>
    have hl := Cols.length h
    cases vs with
    | nil =>
      have : s = fun _ => [] := funext fun i => List.length_eq_zero_iff.1 (hl i)
      subst this
      exact Cols.nil
    | cons v vs =>
      have e : ∀ i, Ring.chunksAux n (fuel + 1) (s i) =
          (s i).take n :: Ring.chunksAux n fuel ((s i).drop n) := by
        intro i
        cases hs : s i with
        | nil => have := hl i; simp [hs] at this
        | cons _ _ => rfl
      simp only [e]
      exact Cols.cons (P := Cols P) (h.take n) (ih (h.drop n))

/-- The pieces are short, follow each other, and all but the last are full. -/
theorem unpackLoop_cols {b : PartyID → Share (BitVec 1)} {c : BitVec 1} (hb : IsBShare b c) (hk : 0 < k)
    (fuel : Nat) {x : PartyID → List (Share (BitVec 1))} {vs : List (BitVec 1)} (hx : IsBShares x vs)
    (hf : vs.length ≤ fuel)
    {r : PartyID → List (BitVec k)}
    (hr : ∃ ms : List (PartyID → BitVec k), ms.length = (chunksAux k fuel vs).length ∧
      r = fun i => List.zipWith (fun els m => preBit (pack k els) (b i) (m i ^^^ m i.prev))
        (chunksAux k fuel (x i)) ms) :
    IsBShares (fun i => unpackLoop k ((r i).zip (r i.prev)) vs.length) (vs.map (· &&& c)) := by
  obtain ⟨ms, hms, rfl⟩ := hr
  induction fuel generalizing x vs ms with
  | zero =>
    have : vs = [] := List.length_eq_zero_iff.1 (by omega)
    subst this
    simp only [chunksAux, List.zipWith_nil_left, List.zip_nil_left, unpackLoop]
    exact Cols.nil
  | succ fuel ih =>
    have hl := Cols.length hx
    cases vs with
    | nil =>
      have : x = fun _ => [] := funext fun i => List.length_eq_zero_iff.1 (hl i)
      subst this
      simp only [chunksAux, List.zipWith_nil_left, List.zip_nil_left, unpackLoop]
      exact Cols.nil
    | cons v vs' =>
      have e : ∀ i, Ring.chunksAux k (fuel + 1) (x i) =
          (x i).take k :: Ring.chunksAux k fuel ((x i).drop k) := by
        intro i
        cases hs : x i with
        | nil => have := hl i; simp [hs] at this
        | cons _ _ => rfl
      have e' : Ring.chunksAux k (fuel + 1) (v :: vs') =
          (v :: vs').take k :: Ring.chunksAux k fuel ((v :: vs').drop k) := rfl
      set vs := v :: vs' with hvs
      have h0 : 0 < vs.length := by simp [hvs]
      rw [e'] at hms
      cases ms with
      | nil => simp at hms
      | cons m ms =>
        simp only [List.length_cons, Nat.add_right_cancel_iff] at hms
        have h1 := isBShares_unpack (k := k) (Cols.take hx k) hb (by simp) m
        have h2 := ih (Cols.drop hx k) (by simp; omega) ms hms
        simp only [e, List.zipWith_cons_cons, List.zip_cons_cons, unpackLoop]
        have h3 := Cols.append h1 h2
        rw [← List.map_append, List.take_append_drop] at h3
        have e1 : min k vs.length = (vs.take k).length := by simp
        have e2 : vs.length - (vs.take k).length = (vs.drop k).length := by simp; omega
        rw [e1, e2]
        exact h3

theorem spec_packAnd {x : PartyID → List (Share (BitVec 1))} {vs : List (BitVec 1)}
    {b : PartyID → Share (BitVec 1)} {c : BitVec 1} (hx : IsBShares x vs) (hb : IsBShare b c)
    (h0 : vs ≠ []) (hst : Corr ty st) :
    Spec (M := M) (fun i => packAnd (x i) (b i)) st (fun r st' =>
      IsBShares r (vs.map (· &&& c)) ∧ Corr ty st') := by
  have hl := Cols.length hx
  have hpos : 0 < vs.length := List.length_pos_iff.2 h0
  simp only [packAnd, hl]
  by_cases h : vs.length ≤ 128
  · simp only [if_pos h]
    have hc : Nat.clog 2 vs.length ≤ 7 := Nat.clog_le_of_le_pow (by norm_num; exact h)
    have hle := Nat.le_pow_clog (b := 2) (by norm_num) vs.length
    generalize Nat.clog 2 vs.length = d at hc hle
    have hd : d = 0 ∨ d = 1 ∨ d = 2 ∨ d = 3 ∨ d = 4 ∨ d = 5 ∨ d = 6 ∨ d = 7 := by omega
    rcases hd with rfl | rfl | rfl | rfl | rfl | rfl | rfl | rfl
    · norm_num at hle ⊢
      obtain ⟨v, rfl⟩ : ∃ v, vs = [v] := List.length_eq_one_iff.1 (by omega)
      obtain ⟨l, rfl, hl'⟩ := hx
      cases hl' with
      | cons h1 ht =>
        cases ht
        simp only [List.map_cons, List.map_nil, and_eq]
        refine Spec.bind (Bin.spec_and h1 hb hst) ?_
        rintro z st' ⟨hz, hst'⟩
        exact Spec.pure ⟨Cols.cons hz Cols.nil, hst'⟩
    all_goals norm_num at hle ⊢
    all_goals exact spec_packAndOne hx hb (by omega) hst
  · simp only [if_neg h]
    have hch := Cols.chunksAux 64 vs.length hx
    have hcl := Cols.length hch
    simp only [chunks, hl]
    refine Spec.bind (Spec.mapColsRel (I := Corr ty) (P := Cols IsBShare)
      (Q := fun y r => ∃ m : PartyID → BitVec 64, r = fun i => preBit (pack 64 (y i)) (b i) (m i ^^^ m i.prev))
      hch (fun y v st _ hst => spec_andPreBit hst) hst) ?_
    rintro r st' ⟨⟨l, rs, h1, rfl, h2, h3⟩, hst'⟩
    refine Spec.bind spec_reshare ?_
    rintro z st'' ⟨rfl, rfl⟩
    refine Spec.pure ⟨?_, hst'⟩
    refine unpackLoop_cols hb (by norm_num) vs.length hx le_rfl ?_
    have hex : ∃ ms : List (PartyID → BitVec 64), ms.length = l.length ∧
        rs = List.zipWith (fun y m i => preBit (pack 64 (y i)) (b i) (m i ^^^ m i.prev)) l ms := by
      clear h1 h2 hcl hch
      induction h3 with
      | nil => exact ⟨[], rfl, rfl⟩
      | cons h _ ih =>
        obtain ⟨m, rfl⟩ := h
        obtain ⟨ms, hm, rfl⟩ := ih
        exact ⟨m :: ms, by simp [hm], rfl⟩
    obtain ⟨ms, hm, rfl⟩ := hex
    refine ⟨ms, by rw [hm, h2.length_eq], ?_⟩
    funext i
    rw [congrFun h1 i, List.map_zipWith, List.zipWith_map_left]

/-! ### The one-hot vector -/

/-- The vector of length `2^n` that is one exactly at position `v`. -/
def hot (n v : Nat) : List (BitVec 1) := (List.range (2 ^ n)).map fun j => BitVec.ofBool (decide (j = v))

@[simp] theorem hot_length (n v : Nat) : (hot n v).length = 2 ^ n := by simp [hot]

theorem xor_and1 (x y c : BitVec 1) : (x &&& c) ^^^ (y &&& c) = (x ^^^ y) &&& c := by
  revert x y c; decide

theorem and_one1 (x : BitVec 1) : x &&& 1#1 = x := by revert x; decide

theorem foldl_xor_and (c : BitVec 1) (l : List (BitVec 1)) (z : BitVec 1) :
    (l.map (· &&& c)).foldl (· ^^^ ·) z = z ^^^ (l.foldl (· ^^^ ·) 0#1 &&& c) := by
  have hz : ∀ (l : List (BitVec 1)) (a b : BitVec 1), l.foldl (· ^^^ ·) (a ^^^ b) = a ^^^ l.foldl (· ^^^ ·) b := by
    intro l
    induction l with
    | nil => intro a b; rfl
    | cons x l ih => intro a b; simp only [List.foldl_cons, BitVec.xor_assoc, ih]
  induction l generalizing z with
  | nil => simp
  | cons x l ih =>
    simp only [List.map_cons, List.foldl_cons, ih]
    have := hz l x 0#1
    rw [show (0#1 ^^^ x) = x ^^^ 0#1 from BitVec.xor_comm _ _, this, BitVec.xor_assoc]
    congr 1
    exact xor_and1 _ _ _

/-- The XOR of a prefix of a one-hot vector says whether the position is in the prefix. -/
theorem fold_hot (m v : Nat) :
    ((List.range m).map fun j => BitVec.ofBool (decide (j = v))).foldl (· ^^^ ·) 0#1 =
      BitVec.ofBool (decide (v < m)) := by
  induction m with
  | zero => simp
  | succ m ih =>
    rw [List.range_succ, List.map_append, List.foldl_append, ih]
    simp only [List.map_cons, List.map_nil, List.foldl_cons, List.foldl_nil]
    by_cases h1 : v < m
    · have h2 : ¬ (m = v) := by omega
      have h3 : v < m + 1 := by omega
      simp [h1, h2, h3]
    · by_cases h2 : m = v
      · subst h2; simp
      · have h3 : ¬ (v < m + 1) := by omega
        simp [h1, h2, h3]

/-- One doubling step. -/
theorem hot_succ (n v : Nat) (c : Bool) (hv : v < 2 ^ n) :
    let f := hot n v
    let e0 := (f.take (f.length - 1)).map (· &&& BitVec.ofBool c)
    let e := e0 ++ [e0.foldl (· ^^^ ·) (BitVec.ofBool c)]
    List.zipWith (· ^^^ ·) f e ++ e = hot (n + 1) (v + if c then 2 ^ n else 0) := by
  have hpos := Nat.two_pow_pos n
  have htake : (hot n v).take (2 ^ n - 1) =
      (List.range (2 ^ n - 1)).map fun j => BitVec.ofBool (decide (j = v)) := by
    rw [hot, ← List.map_take, List.take_range, Nat.min_eq_left (by omega)]
  have he : (((hot n v).take ((hot n v).length - 1)).map (· &&& BitVec.ofBool c)) ++
      [(((hot n v).take ((hot n v).length - 1)).map (· &&& BitVec.ofBool c)).foldl (· ^^^ ·) (BitVec.ofBool c)] =
      (hot n v).map (· &&& BitVec.ofBool c) := by
    rw [foldl_xor_and, hot_length, htake, fold_hot, hot]
    conv_rhs => rw [show 2 ^ n = (2 ^ n - 1) + 1 by omega, List.range_succ]
    rw [List.map_append, List.map_append]
    congr 1
    simp only [List.map_cons, List.map_nil, List.cons.injEq, and_true]
    by_cases h : v < 2 ^ n - 1
    · have h2 : ¬ (2 ^ n - 1 = v) := by omega
      simp [h, h2]
      cases c <;> rfl
    · have h2 : 2 ^ n - 1 = v := by omega
      simp [h2]
      cases c <;> rfl
  intro f e0 e
  have he' : e = (hot n v).map (· &&& BitVec.ofBool c) := he
  rw [he']
  apply List.ext_getElem
  · simp [f, Nat.pow_succ]; omega
  · intro i h1 h2
    have hi : i < 2 ^ (n + 1) := by simpa using h2
    rw [Nat.pow_succ] at hi
    rw [List.getElem_append]
    split
    · rename_i hlt
      have hlt' : i < 2 ^ n := by simpa [f] using hlt
      simp only [f, hot, List.getElem_zipWith, List.getElem_map, List.getElem_range]
      cases c
      · simp
      · have : ¬ (i = v + 2 ^ n) := by omega
        simp [this, and_one1]
    · rename_i hlt
      have hlt' : 2 ^ n ≤ i := by simpa [f] using hlt
      simp only [f, hot, List.getElem_map, List.getElem_range, List.length_zipWith, List.length_map,
        List.length_range, Nat.min_self]
      cases c
      · have : ¬ (i = v) := by omega
        simp [this]
      · have : (i - 2 ^ n = v) ↔ (i = v + 2 ^ n) := by omega
        simp [this, and_one1]

theorem foldl_cols {x : PartyID → List (Share (BitVec 1))} {vs : List (BitVec 1)}
    {b : PartyID → Share (BitVec 1)} {c : BitVec 1} (hx : IsBShares x vs) (hb : IsBShare b c) :
    IsBShare (fun i => (x i).foldl Share.bxor (b i)) (vs.foldl (· ^^^ ·) c) := by
  obtain ⟨l, rfl, hl⟩ := hx
  induction hl generalizing b c with
  | nil => exact hb
  | cons h _ ih => exact ih (hb.bxor h)

theorem spec_ohv (n : Nat) (hn : 0 < n) (hk : n ≤ k) {x : PartyID → Share (BitVec k)} {v : BitVec k}
    (hx : IsBShare x v) (hst : Corr ty st) :
    Spec (M := M) (fun i => ohv n (x i)) st (fun r st' =>
      IsBShares r (hot n (v.toNat % 2 ^ n)) ∧ Corr ty st') := by
  induction n generalizing x v st with
  | zero => omega
  | succ n ih =>
    simp only [ohv]
    have hv := hx.getBit n
    by_cases h0 : n = 0
    · subst h0
      simp only [if_true]
      refine Spec.pure ⟨?_, hst⟩
      have := Cols.cons hv.bnot (Cols.cons hv Cols.nil)
      show Cols IsBShare _ _
      convert this using 1
      simp only [hot, Nat.zero_add, Nat.pow_one, List.range_succ, List.range_zero, List.nil_append,
        List.map_append, List.map_cons, List.map_nil, List.cons_append]
      have : v.getLsbD 0 = decide (v.toNat % 2 = 1) := by
        simp [BitVec.getLsbD, Nat.testBit_zero]
      rw [this]
      rcases Nat.mod_two_eq_zero_or_one v.toNat with h | h <;> simp [h]
    · simp only [if_neg h0]
      refine Spec.bind (ih (by omega) (by omega) (hx.andMask _) hst) ?_
      rintro f st' ⟨hf, hst'⟩
      have hmask : (v &&& (1#k <<< n - 1#k)).toNat % 2 ^ n = v.toNat % 2 ^ n := by
        rw [ones_eq n (by omega), BitVec.toNat_and, Uint.mask, BitVec.toNat_ofNat,
          Nat.mod_eq_of_lt (lt_of_lt_of_le (Nat.sub_lt (Nat.two_pow_pos _) one_pos)
            (Nat.pow_le_pow_right (by norm_num) (by omega))),
          Nat.and_two_pow_sub_one_eq_mod, Nat.mod_mod]
      rw [hmask] at hf
      have hfl := Cols.length hf
      have hpos : 2 ≤ 2 ^ n := by
        calc 2 = 2 ^ 1 := rfl
          _ ≤ 2 ^ n := Nat.pow_le_pow_right (by norm_num) (by omega)
      simp only [hfl]
      refine Spec.bind (spec_packAnd (Cols.take hf _) hv (by
        intro h; have := congrArg List.length h; simp at this; omega) hst') ?_
      rintro e st'' ⟨he, hst''⟩
      refine Spec.pure ⟨?_, hst''⟩
      have he1 := Cols.append he (Cols.cons (foldl_cols he hv) Cols.nil)
      have hz := Cols.zipWith (W := IsBShare) (f := fun _ => Share.bxor) (g := (· ^^^ ·)) hf he1
        (fun _ _ _ _ h h' => h.bxor h')
      have := Cols.append hz he1
      show Cols IsBShare _ _
      convert this using 1
      have key := hot_succ n (v.toNat % 2 ^ n) (v.getLsbD n) (Nat.mod_lt _ (Nat.two_pow_pos _))
      simp only at key
      rw [key]
      congr 1
      rw [Nat.mod_pow_succ]
      have : v.getLsbD n = decide (v.toNat / 2 ^ n % 2 = 1) := by
        rw [BitVec.getLsbD, Nat.testBit_eq_decide_div_mod_eq]
      rw [this]
      rcases Nat.mod_two_eq_zero_or_one (v.toNat / 2 ^ n) with h | h <;> simp [h]

theorem spec_randOhv (n : Nat) (hn : 0 < n) (hk : n ≤ k) (hst : Corr ty st) :
    Spec (M := M) (fun _ => randOhv k n) st (fun r st' =>
      (∃ v : BitVec k, v.toNat < 2 ^ n ∧ (∀ i, (r i).1.a.toNat < 2 ^ n ∧ (r i).1.b.toNat < 2 ^ n) ∧
        IsBShare (fun i => (r i).1) v ∧ IsBShares (fun i => (r i).2) (hot n v.toNat)) ∧ Corr ty st') := by
  have hsplit : ∀ y : BitVec k, (y &&& (1#k <<< n - 1#k)).toNat = y.toNat % 2 ^ n ∨ n = k := by
    intro y
    by_cases h : n = k
    · exact .inr h
    · left
      rw [ones_eq n (by omega), BitVec.toNat_and, Uint.mask, BitVec.toNat_ofNat,
          Nat.mod_eq_of_lt (lt_of_lt_of_le (Nat.sub_lt (Nat.two_pow_pos _) one_pos)
            (Nat.pow_le_pow_right (by norm_num) (by omega))),
          Nat.and_two_pow_sub_one_eq_mod]
  refine Spec.bind (spec_withRand (f := fun _ => Rep3Rand.randomPair (α := BitVec k))
    (Q := fun r st' => (∃ x : PartyID → BitVec k, r = fun i => (x i, x i.prev)) ∧ Corr ty st')
    ⟨⟨fun i => (Sample.sample (st i).rngs.rand.rng1).1, ?_⟩, hst.setRand ?_⟩) ?_
  · funext i; simp [Rep3Rand.randomPair, hst.rand i]
  · intro i; simp [Rep3Rand.randomPair, hst.rand i]
  rintro r st' ⟨⟨x, rfl⟩, hst'⟩
  obtain ⟨y, hy, hyl⟩ : ∃ y : PartyID → BitVec k,
      ((fun i => if n ≠ k then (⟨x i &&& (1#k <<< n - 1#k), x i.prev &&& (1#k <<< n - 1#k)⟩ : Share (BitVec k))
        else ⟨x i, x i.prev⟩) = fun i => ⟨y i, y i.prev⟩) ∧ ∀ i, (y i).toNat < 2 ^ n := by
    by_cases h : n = k
    · exact ⟨x, by simp [h], fun i => by rw [h]; exact (x i).isLt⟩
    · refine ⟨fun i => x i &&& (1#k <<< n - 1#k), by simp [h], fun i => ?_⟩
      rcases hsplit (x i) with h' | h'
      · rw [h']; exact Nat.mod_lt _ (Nat.two_pow_pos _)
      · exact absurd h' h
  have hy' := fun i => congrFun hy i
  simp only [hy']
  set v := y ID0 ^^^ y ID1 ^^^ y ID2 with hv
  have hvl : v.toNat < 2 ^ n := by
    rw [hv, BitVec.toNat_xor, BitVec.toNat_xor]
    exact Nat.xor_lt_two_pow (Nat.xor_lt_two_pow (hyl _) (hyl _)) (hyl _)
  have hs : IsBShare (fun i => Share.mk (y i) (y i.prev)) v := isBShare_mk rfl
  refine Spec.bind (spec_ohv n hn hk hs hst') ?_
  rintro e st'' ⟨he, hst''⟩
  rw [Nat.mod_eq_of_lt hvl] at he
  exact Spec.pure ⟨⟨v, hvl, fun i => ⟨hyl i, hyl _⟩, hs, he⟩, hst''⟩

end

end Verif.Rep3.Ring
