import Verif.Rep3.Reshare23Lemmas
import Verif.Props.Demo

/-!
# Properties C06 - C14, C18, C19: arithmetic on shares

`Ensures p st Q`: in *every* execution of the three party programs `p i`, started in the states
`st i`, all parties return `Ok`, and the returned values and the new states satisfy `Q`.
`EnsuresE` is the same with outcomes that may be errors.  `Corr t st` says that the correlated
generators are synchronised; C15 and C16 show that setup establishes it and that every request keeps
it.  The results over the rings of integers modulo `2^k` (C42) are the instance `F = BitVec k`.
-/

namespace Verif.Props

open PartyID Rep3 Demo

variable {R M F : Type} {t : A2BType} {st : PartyID → Rep3State R}

/-! ## C06 -/

section Local

variable [CommRing F] {a b : PartyID → Share F} {x y : F}

/-- C06: local operations. No network program occurs: they are plain functions of the party's own
share, its id and the public value. -/
theorem C06_linear (ha : IsShare a x) (hb : IsShare b y) (c : F) :
    IsShare (fun i => add (a i) (b i)) (x + y) ∧
    IsShare (fun i => sub (a i) (b i)) (x - y) ∧
    IsShare (fun i => neg (a i)) (-x) ∧
    IsShare (fun i => mulPublic (a i) c) (x * c) ∧
    IsShare (fun i => addPublic (a i) c i) (x + c) ∧
    IsShare (fun i => subSharedByPublic (a i) c i) (x - c) ∧
    IsShare (fun i => subPublicByShared c (a i) i) (c - x) ∧
    IsShare (fun i => addMulPublic (a i) (b i) c) (x + y * c) ∧
    IsShare (fun i => (a i).double) (2 * x) ∧
    IsShare (fun i => promoteToTrivialShare i c) c ∧
    IsShare (fun i => Share.promoteFromTrivial c i) c ∧
    (∀ r, IsShare (fun i => Share.promoteWithScalar c r i) c) ∧
    IsShare (fun _ => (Share.zeroShare : Share F)) 0 := by
  refine ⟨ha.add hb, ha.sub hb, ha.neg, ha.scale c, ha.addPublic c, ?_, ?_, ha.add (hb.scale c), ?_,
    .promote c, .promoteWithScalar c 0, fun r => .promoteWithScalar c r, .zero⟩
  · rw [sub_eq_add_neg]; exact ha.addPublic (-c)
  · rw [sub_eq_add_neg, add_comm]; exact ha.neg.addPublic c
  · rw [two_mul]; exact ha.add ha

example : IsShare (fun i => sub (three7 i) (five7 i)) 5 := (C06_linear isShare_three7 isShare_five7 0).2.1

theorem addVecAssign_eq (l : List (PartyID → Share F)) (l' : List (PartyID → Share F))
    (h : l.length = l'.length) (i : PartyID) : addVecAssign (l.map (· i)) (l'.map (· i)) =
      (List.zipWith (fun x y i => x i + y i) l l').map (· i) := by
  induction l generalizing l' with
  | nil => cases l' <;> simp [addVecAssign]
  | cons x l ih => cases l' <;> simp_all [addVecAssign]

theorem subVecAssign_eq (l : List (PartyID → Share F)) (l' : List (PartyID → Share F))
    (h : l.length = l'.length) (i : PartyID) : subVecAssign (l.map (· i)) (l'.map (· i)) =
      (List.zipWith (fun x y i => x i - y i) l l').map (· i) := by
  induction l generalizing l' with
  | nil => cases l' <;> simp [subVecAssign]
  | cons x l ih => cases l' <;> simp_all [subVecAssign]

/-- C06: vector addition and subtraction. -/
theorem C06_linear_vec {a b : PartyID → List (Share F)} {x y : List F} (ha : IsShares a x)
    (hb : IsShares b y) (h : x.length = y.length) :
    IsShares (fun i => addVecAssign (a i) (b i)) (List.zipWith (· + ·) x y) ∧
    IsShares (fun i => subVecAssign (a i) (b i)) (List.zipWith (· - ·) x y) := by
  obtain ⟨l, rfl, hl⟩ := ha
  obtain ⟨l', rfl, hl'⟩ := hb
  have hlen : l.length = l'.length := by rw [hl.length_eq, hl'.length_eq, h]
  exact ⟨⟨_, funext (addVecAssign_eq l l' hlen), forall₂_zipWith (fun _ _ _ _ h h' => h.add h') hl hl'⟩,
    ⟨_, funext (subVecAssign_eq l l' hlen), forall₂_zipWith (fun _ _ _ _ h h' => h.sub h') hl hl'⟩⟩

/-- C06: multiplication by a public power of two; the code panics exactly for exponents of at least
the bit size of the modulus. -/
theorem C06_pow2 (bits : Nat) (ha : IsShare a x) (n : Nat) (hb : bits ≤ 2 ^ 32) :
    (n < bits → ∃ r : PartyID → Share F, (∀ i, pow2Public bits (a i) n = some (r i)) ∧
      IsShare r (x * 2 ^ n)) ∧
    (n ≠ 0 → bits ≤ n → ∀ i, pow2Public bits (a i) n = none) := by
  constructor
  · intro hn
    by_cases h0 : n = 0
    · subst h0
      exact ⟨a, fun i => by simp [pow2Public], by simpa using ha⟩
    · refine ⟨fun i => mulPublic (a i) (2 ^ n), fun i => ?_, ha.scale _⟩
      have h1 : ¬ 2 ^ 32 ≤ n := by omega
      have h2 : ¬ bits ≤ n := by omega
      simp [pow2Public, h0, h2]
      omega
  · intro h0 h1 i
    simp only [pow2Public, h0, if_false]
    split
    · rfl
    · simp [h1]

example : ∃ r : PartyID → Share F7, (∀ i, pow2Public 3 (three7 i) 2 = some (r i)) ∧ IsShare r 5 :=
  (C06_pow2 3 isShare_three7 2 (by norm_num)).1 (by norm_num)

end Local

/-- C06, C11: division by a public value; zero is rejected. -/
theorem C11_div_shared_by_public [Field F] [DecidableEq F] {a : PartyID → Share F} {x : F}
    (ha : IsShare a x) (c : F) :
    (c = 0 → ∀ i, ∃ e, divSharedByPublic (a i) c = .error (.err e)) ∧
    (c ≠ 0 → ∃ r : PartyID → Share F, (∀ i, divSharedByPublic (a i) c = .ok (r i)) ∧
      IsShare r (x / c)) := by
  refine ⟨fun h i => ⟨_, by simp only [divSharedByPublic, h, if_true]; rfl⟩, fun h =>
    ⟨fun i => mulPublic (a i) c⁻¹, fun i => by simp [divSharedByPublic, h], ?_⟩⟩
  rw [div_eq_mul_inv]
  exact ha.scale _

section Comm

variable [CommRing F] [Sample R F] [Codec M (List F)]

/-! ## C07, C08 -/

/-- C07 -/
theorem C07_mul {a b : PartyID → Share F} {x y : F} (ha : IsShare a x) (hb : IsShare b y)
    (hst : Corr t st) :
    Ensures (M := M) (fun i => mul (a i) (b i)) st
      (fun r st' => IsShare r (x * y) ∧ Corr t st') :=
  (spec_mul ha hb hst).ensures

example : Ensures (M := Msg) (fun i => mul (three7 i) (five7 i)) states
    (fun r st' => IsShare r 1 ∧ Corr .direct st') :=
  C07_mul isShare_three7 isShare_five7 corr_states

/-- C08: `mul_vec`, position by position, with the length of the inputs. -/
theorem C08_mul_vec {a b : PartyID → List (Share F)} {x y : List F} (ha : IsShares a x)
    (hb : IsShares b y) (h : x.length = y.length) (hst : Corr t st) :
    Ensures (M := M) (fun i => mulVec (a i) (b i)) st
      (fun r st' => IsShares r (List.zipWith (· * ·) x y) ∧ (∀ i, (r i).length = x.length) ∧
        Corr t st') := by
  refine ((spec_mulVec ha hb hst).mono ?_).ensures
  rintro r st' ⟨hr, hst'⟩
  refine ⟨hr, ?_, hst'⟩
  obtain ⟨l, rfl, hl⟩ := hr
  intro i
  have := hl.length_eq
  simp [this, h]

example : Ensures (M := Msg) (fun i => mulVec [three7 i, five7 i] [five7 i, one7 i]) states
    (fun r st' => IsShares r [1, 5] ∧ (∀ i, (r i).length = 2) ∧ Corr .direct st') :=
  C08_mul_vec isShares_35 isShares_51 rfl corr_states

/-- C08: `add_mul`. -/
theorem C08_add_mul {a b c : PartyID → Share F} {x y z : F} (ha : IsShare a x) (hb : IsShare b y)
    (hc : IsShare c z) (hst : Corr t st) :
    Ensures (M := M) (fun i => addMul (a i) (b i) (c i)) st
      (fun r st' => IsShare r (x + y * z) ∧ Corr t st') :=
  (spec_addMul ha hb hc hst).ensures

/-- C08: local multiplication followed by resharing gives the same secrets as `mul_vec`. -/
theorem C08_local_then_reshare [SampleVec R F] {a b : PartyID → List (Share F)} {x y : List F}
    (ha : IsShares a x) (hb : IsShares b y) (h : x.length = y.length) (hst : Corr t st) :
    Ensures (M := M) (fun i => localMulVec (a i) (b i) >>= reshareVec) st
      (fun r st' => IsShares r (List.zipWith (· * ·) x y) ∧ Corr t st') := by
  refine (Spec.bind (spec_localMulVec ha hb h hst) ?_).ensures
  rintro r st' ⟨⟨rs, rfl, hrs⟩, hst'⟩
  refine spec_reshareVec.mono ?_
  rintro v st'' ⟨rfl, rfl⟩
  exact ⟨isShares_replicate hrs, hst'⟩

example : Ensures (M := Msg) (fun i => localMulVec [three7 i, five7 i] [five7 i, one7 i] >>= reshareVec)
    states (fun r st' => IsShares r [1, 5] ∧ Corr .direct st') :=
  C08_local_then_reshare isShares_35 isShares_51 rfl corr_states

omit [CommRing F] [Sample R F] [Codec M (List F)] in
theorem mapM_local {α β : Type} {f : α → Rep3M R M β}
    (h : ∀ x i s, ∃ y s', f x i s = .ret (y, s')) (l : List α) (i : PartyID) (s : Rep3State R) :
    ∃ ys s', l.mapM f i s = .ret (ys, s') ∧ ys.length = l.length := by
  induction l generalizing s with
  | nil => exact ⟨[], s, rfl, rfl⟩
  | cons x xs ih =>
    obtain ⟨y, s', h1⟩ := h x i s
    obtain ⟨ys, s'', h2, h3⟩ := ih s'
    exact ⟨y :: ys, s'', by simp [List.mapM_cons, h1, h2], by simp [h3]⟩

/-- C08: whatever the other parties do, a party that receives a message which is not a vector of
the length of its own inputs returns an error. It sends one message, then waits for one. -/
theorem C08_wrong_length (lhs rhs : List (Share F)) (i : PartyID) (s : Rep3State R) :
    ∃ (out : List F) (k : M → Prog PartyID M Err (List (Share F) × Rep3State R)),
      mulVec lhs rhs i s = .send i.next (Codec.enc out) (.recv i.prev k) ∧
      out.length = min lhs.length rhs.length ∧
      (∀ m, (∀ l : List F, Codec.dec m = some l → l.length ≠ out.length) →
        ∃ e, k m = .fail (.err e)) ∧
      (∀ m (l : List F), Codec.dec m = some l → l.length = out.length →
        ∃ r s', k m = .ret (r, s') ∧ r.length = out.length) := by
  obtain ⟨ys, s', h1, h2⟩ := mapM_local (M := M) (f := fun (lr : Share F × Share F) => do
    let m ← maskElem
    pure (lr.1.localMul lr.2 + m)) (fun x i s => ⟨_, _, rfl⟩) (lhs.zip rhs) i s
  simp only [bind_pure_comp] at h1
  refine ⟨ys, _, by simp [mulVec, h1, reshareVec, reshareMany, sendAndRecvMany, sendMany, recvMany,
    MPC.recv_apply]; rfl, by simp [h2], ?_, ?_⟩
  · intro m hm
    cases hd : Codec.dec (α := List F) m with
    | none => exact ⟨_, by simp [hd]; rfl⟩
    | some l =>
      refine ⟨"During execution of mul_vec in MPC: Invalid number of elements received", ?_⟩
      have := hm l hd
      simp [hd, this]
  · intro m l hd hl
    refine ⟨List.zipWith Share.mk ys l, s', ?_, by simp [hl]⟩
    simp [hd, hl]

/-! ## C09, C10 -/

/-- C09 -/
theorem C09_open {a : PartyID → Share F} {x : F} (ha : IsShare a x) :
    Ensures (M := M) (fun i => openShare (a i)) st (fun r st' => (∀ i, r i = x) ∧ st' = st) :=
  ((spec_open ha).mono fun r st' ⟨h, h'⟩ => ⟨fun i => congrFun h i, h'⟩).ensures

/-- C09: vectors. -/
theorem C09_open_vec {a : PartyID → List (Share F)} {x : List F} (ha : IsShares a x) :
    Ensures (M := M) (fun i => openVec (a i)) st (fun r st' => (∀ i, r i = x) ∧ st' = st) :=
  ((spec_openVec ha).mono fun r st' ⟨h, h'⟩ => ⟨fun i => congrFun h i, h'⟩).ensures

example : Ensures (M := Msg) (fun i => openVec [three7 i, five7 i]) states
    (fun r st' => (∀ i, r i = [3, 5]) ∧ st' = states) := C09_open_vec isShares_35

/-- C10 -/
theorem C10_mul_open {a b : PartyID → Share F} {x y : F} (ha : IsShare a x) (hb : IsShare b y)
    (hst : Corr t st) :
    Ensures (M := M) (fun i => mulOpen (a i) (b i)) st
      (fun r st' => (∀ i, r i = x * y) ∧ Corr t st') :=
  ((spec_mulOpen ha hb hst).mono fun _ _ ⟨h, h'⟩ => ⟨fun i => congrFun h i, h'⟩).ensures

/-- C10: vectors. -/
theorem C10_mul_open_vec {a b : PartyID → List (Share F)} {x y : List F} (ha : IsShares a x)
    (hb : IsShares b y) (hst : Corr t st) :
    Ensures (M := M) (fun i => mulOpenVec (a i) (b i)) st
      (fun r st' => (∀ i, r i = List.zipWith (· * ·) x y) ∧ Corr t st') :=
  ((spec_mulOpenVec ha hb hst).mono fun _ _ ⟨h, h'⟩ => ⟨fun i => congrFun h i, h'⟩).ensures

example : Ensures (M := Msg) (fun i => mulOpen (three7 i) (five7 i)) states
    (fun r st' => (∀ i, r i = 1) ∧ Corr .direct st') :=
  C10_mul_open isShare_three7 isShare_five7 corr_states

/-! ## C13, C14, C18, C19 -/

/-- C13: selection. -/
theorem C13_cmux {c a b : PartyID → Share F} {z x y : F} (hc : IsShare c z) (ha : IsShare a x)
    (hb : IsShare b y) (hst : Corr t st) :
    Ensures (M := M) (fun i => cmux (c i) (a i) (b i)) st (fun r st' =>
      (z = 1 → IsShare r x) ∧ (z = 0 → IsShare r y) ∧ IsShare r (y + z * (x - y)) ∧ Corr t st') := by
  refine ((spec_cmux hc ha hb hst).mono ?_).ensures
  rintro r st' ⟨hr, hst'⟩
  refine ⟨?_, ?_, hr, hst'⟩
  · rintro rfl; simpa using hr
  · rintro rfl; simpa using hr

/-- C13: position-wise selection. -/
theorem C13_cmux_vec {c : PartyID → Share F} {a b : PartyID → List (Share F)} {z : F} {x y : List F}
    (hc : IsShare c z) (ha : IsShares a x) (hb : IsShares b y) (h : x.length = y.length)
    (hst : Corr t st) :
    Ensures (M := M) (fun i => cmuxVec (c i) (a i) (b i)) st (fun r st' =>
      (z = 1 → IsShares r x) ∧ (z = 0 → IsShares r y) ∧ Corr t st') := by
  refine ((spec_cmuxVec hc ha hb hst).mono ?_).ensures
  rintro r st' ⟨hr, hst'⟩
  refine ⟨?_, ?_, hst'⟩
  · rintro rfl
    convert hr using 1
    apply List.ext_getElem (by simp [h])
    intro k h1 h2
    simp
  · rintro rfl
    convert hr using 1
    apply List.ext_getElem (by simp [h])
    intro k h1 h2
    simp

example : Ensures (M := Msg) (fun i => cmux (one7 i) (three7 i) (five7 i)) states
    (fun r st' => IsShare r 3 ∧ Corr .direct st') :=
  (C13_cmux isShare_one7 isShare_three7 isShare_five7 corr_states).mono
    fun _ _ h => ⟨h.1 rfl, h.2.2.2⟩

/-- C14: powers; the exponent is the integer value of the public field element. -/
theorem C14_pow (n : Nat) {a : PartyID → Share F} {x : F} (ha : IsShare a x) (hst : Corr t st) :
    Ensures (M := M) (fun i => powPublic (a i) n) st
      (fun r st' => IsShare r (x ^ n) ∧ Corr t st') :=
  (spec_powPublic n ha hst).ensures

example : Ensures (M := Msg) (fun i => powPublic (three7 i) 5) states
    (fun r st' => IsShare r (3 ^ 5) ∧ Corr .direct st') :=
  C14_pow 5 isShare_three7 corr_states

/-- C18: resharing; the input of the recipient is arbitrary (also absent). -/
theorem C18_reshare {inp : PartyID → Option (List (Share F))} {a : PartyID → List (Share F)}
    {x : List F} (recipient : PartyID) (ha : IsShares a x)
    (hinp : ∀ i, i ≠ recipient → inp i = some (a i)) (hst : Corr t st) :
    Ensures (M := M) (fun i => reshareFrom2To3Parties (inp i) x.length recipient) st
      (fun s st' => IsShares s x ∧ Corr t st') :=
  (spec_reshareFrom2To3Parties ha hinp hst).ensures

/-- C18: the two parties with input know everything that is needed: two parties whose components
match (`ha`) determine a sharing, whatever the recipient would have held. -/
theorem C18_two_parties {a : PartyID → Share F} (recipient : PartyID)
    (ha : (a recipient.prev).b = (a recipient.next).a) :
    ∃ a' : PartyID → Share F, (∀ i, i ≠ recipient → a' i = a i) ∧
      IsShare a' ((a recipient.next).a + (a recipient.next).b + (a recipient.prev).a) := by
  refine ⟨fun i => if i = recipient then ⟨(a recipient.next).b, (a recipient.prev).a⟩ else a i,
    fun i h => by simp [h], ?_⟩
  rw [isShare_iff]
  cases recipient <;> simp at ha ⊢ <;> simp [ha] <;> ring

/-- C18: a party that is not the recipient and has no input, or input of the wrong length, returns
an error without communicating. -/
theorem C18_missing_input (inp : Option (List (Share F))) (len : Nat) (recipient i : PartyID)
    (s : Rep3State R) (hid : s.id ≠ recipient) (h : ∀ l, inp = some l → l.length ≠ len) :
    ∃ e, reshareFrom2To3Parties (M := M) inp len recipient i s = .fail (.err e) := by
  cases inp with
  | none => exact ⟨_, by simp [reshareFrom2To3Parties, stateId, hid]; rfl⟩
  | some l =>
    exact ⟨_, by simp [reshareFrom2To3Parties, stateId, hid, h l rfl]; rfl⟩

example : Ensures (M := Msg) (fun i => reshareFrom2To3Parties
      (if i = ID1 then none else some [three7 i, five7 i]) 2 ID1) states
    (fun s st' => IsShares s [3, 5] ∧ Corr .direct st') :=
  C18_reshare ID1 isShares_35 (fun i h => by simp [h]) corr_states
example : ∃ e, reshareFrom2To3Parties (F := F7) (M := Msg) none 2 ID1 ID0 (states ID0) = .fail (.err e) :=
  C18_missing_input _ _ _ _ _ (by decide) (by simp)

/-- C19 -/
theorem C19_xor {a b : PartyID → Share F} {x y : F} (ha : IsShare a x) (hb : IsShare b y)
    (hst : Corr t st) :
    Ensures (M := M) (fun i => arithmeticXor (a i) (b i)) st (fun r st' =>
      IsShare r (x + y - 2 * (x * y)) ∧
      (∀ p q : Bool, x = (p.toNat : F) → y = (q.toNat : F) → IsShare r ((p ^^ q).toNat : F)) ∧
      Corr t st') := by
  refine ((spec_arithmeticXor ha hb hst).mono ?_).ensures
  rintro r st' ⟨hr, hst'⟩
  refine ⟨hr, ?_, hst'⟩
  rintro p q rfl rfl
  convert hr using 1
  cases p <;> cases q <;> simp <;> norm_num

/-- C19: vectors of bits. -/
theorem C19_xor_vec {a b : PartyID → List (Share F)} {x y : List Bool}
    (ha : IsShares a (x.map fun p => (p.toNat : F))) (hb : IsShares b (y.map fun p => (p.toNat : F)))
    (hst : Corr t st) :
    Ensures (M := M) (fun i => arithmeticXorMany (a i) (b i)) st (fun r st' =>
      IsShares r ((List.zipWith (fun p q => p ^^ q) x y).map fun p => (p.toNat : F)) ∧
      Corr t st') := by
  refine ((spec_arithmeticXorMany ha hb hst).mono ?_).ensures
  rintro r st' ⟨hr, hst'⟩
  refine ⟨?_, hst'⟩
  convert hr using 1
  rw [List.zipWith_map, List.map_zipWith]
  congr 1
  funext p q
  cases p <;> cases q <;> simp <;> norm_num

example : Ensures (M := Msg) (fun i => arithmeticXor (one7 i) (one7 i)) states
    (fun r _ => IsShare r 0) :=
  (C19_xor isShare_one7 isShare_one7 corr_states).mono fun _ _ h => by
    simpa using h.2.1 true true (by simp) (by simp)

end Comm

/-! ## C11, C12 -/

section Field

variable [Field F] [DecidableEq F] [Sample R F] [Codec M (List F)]

/-- C11: inversion. `randValue F st` is the value of the random sharing drawn by the call. -/
theorem C11_inv {a : PartyID → Share F} {x : F} (ha : IsShare a x) (hst : Corr t st) :
    EnsuresE (M := M) (fun i => inv (a i)) st (fun r =>
      ((∃ e, ∀ i, r i = .error (.err e)) ∧ (x = 0 ∨ randValue F st = 0)) ∨
      (∃ v st', (∀ i, r i = .ok (v i, st' i)) ∧ x ≠ 0 ∧ IsShare v x⁻¹ ∧ Corr t st')) := by
  refine ((spec_inv ha hst).mono ?_).ensures
  rintro r (⟨e, he, h⟩ | ⟨v, st', hv, h0, h1, h2⟩)
  · exact Or.inl ⟨⟨e, he⟩, mul_eq_zero.mp h⟩
  · exact Or.inr ⟨v, st', hv, left_ne_zero_of_mul h0, h1, h2⟩

/-- C11: division of shares. -/
theorem C11_div {a b : PartyID → Share F} {x y : F} (ha : IsShare a x) (hb : IsShare b y)
    (hst : Corr t st) :
    EnsuresE (M := M) (fun i => div (a i) (b i)) st (fun r =>
      ((∃ e, ∀ i, r i = .error (.err e)) ∧ (y = 0 ∨ randValue F st = 0)) ∨
      (∃ v st', (∀ i, r i = .ok (v i, st' i)) ∧ y ≠ 0 ∧ IsShare v (x / y) ∧ Corr t st')) := by
  refine ((spec_div ha hb hst).mono ?_).ensures
  rintro r (⟨e, he, h⟩ | ⟨v, st', hv, h0, h1, h2⟩)
  · exact Or.inl ⟨⟨e, he⟩, mul_eq_zero.mp h⟩
  · exact Or.inr ⟨v, st', hv, left_ne_zero_of_mul h0, h1, h2⟩

/-- C11: division of a public value by a share. -/
theorem C11_div_public {b : PartyID → Share F} {x y : F} (hb : IsShare b y) (hst : Corr t st) :
    EnsuresE (M := M) (fun i => divPublicByShared x (b i)) st (fun r =>
      ((∃ e, ∀ i, r i = .error (.err e)) ∧ (y = 0 ∨ randValue F st = 0)) ∨
      (∃ v st', (∀ i, r i = .ok (v i, st' i)) ∧ y ≠ 0 ∧ IsShare v (x / y) ∧ Corr t st')) := by
  refine ((spec_divPublicByShared hb hst).mono ?_).ensures
  rintro r (⟨e, he, h⟩ | ⟨v, st', hv, h0, h1, h2⟩)
  · exact Or.inl ⟨⟨e, he⟩, mul_eq_zero.mp h⟩
  · exact Or.inr ⟨v, st', hv, left_ne_zero_of_mul h0, h1, h2⟩

/-- C11: vectors. `randValues F n st` are the values of the `n` random sharings drawn. -/
theorem C11_inv_vec {a : PartyID → List (Share F)} {x : List F} (ha : IsShares a x)
    (hst : Corr t st) :
    EnsuresE (M := M) (fun i => invVec (a i)) st (fun r =>
      ((∃ e, ∀ i, r i = .error (.err e)) ∧ (0 ∈ x ∨ 0 ∈ randValues F x.length st)) ∨
      (∃ v st', (∀ i, r i = .ok (v i, st' i)) ∧ 0 ∉ x ∧ IsShares v (x.map (·⁻¹)) ∧ Corr t st')) := by
  refine ((spec_invVec ha hst).mono ?_).ensures
  rintro r (⟨e, he, h⟩ | ⟨v, st', hv, h0, h1, h2⟩)
  · refine Or.inl ⟨⟨e, he⟩, ?_⟩
    obtain ⟨k, hk, hk'⟩ := List.getElem_of_mem h
    rw [List.getElem_zipWith] at hk'
    rcases mul_eq_zero.mp hk' with h | h
    · exact Or.inl (h ▸ List.getElem_mem _)
    · exact Or.inr (h ▸ List.getElem_mem _)
  · refine Or.inr ⟨v, st', hv, ?_, h1, h2⟩
    intro hx
    apply h0
    obtain ⟨k, hk, hk'⟩ := List.getElem_of_mem hx
    have hl : k < (List.zipWith (· * ·) x (randValues F x.length st)).length := by
      have : (randValues F x.length st).length = x.length := randValues_length _ _
      simp [hk, this]
    have e : (List.zipWith (· * ·) x (randValues F x.length st))[k] = 0 := by
      rw [List.getElem_zipWith, hk', zero_mul]
    rw [← e]
    exact List.getElem_mem _

example : EnsuresE (M := Msg) (fun i => inv (three7 i)) states (fun r =>
    ∃ v st', (∀ i, r i = .ok (v i, st' i)) ∧ IsShare v 5 ∧ Corr .direct st') := by
  refine ((spec_inv isShare_three7 corr_states).mono ?_).ensures
  rintro r (⟨e, -, h⟩ | ⟨v, st', hv, -, h1, h2⟩)
  · exact absurd h (by decide)
  · exact ⟨v, st', hv, by rwa [show (3 : F7)⁻¹ = 5 from inv_eq_of_mul_eq_one_right (by decide)] at h1, h2⟩

/-- C12: a result is a sharing of a square root; failure is joint and happens only for non-squares
or when one of the two random masks is zero. -/
theorem C12_sqrt [HasSqrt F] {a : PartyID → Share F} {x : F} (ha : IsShare a x) (hst : Corr t st) :
    EnsuresE (M := M) (fun i => sqrt (a i)) st (fun r =>
      ((∃ e, ∀ i, r i = .error (.err e)) ∧
        ((¬ ∃ y, y * y = x) ∨ randValue F st = 0 ∨ randValue F (afterRand F st) = 0)) ∨
      (∃ v st', (∀ i, r i = .ok (v i, st' i)) ∧ (∃ y, y * y = x ∧ IsShare v y) ∧ Corr t st')) := by
  refine ((spec_sqrt ha hst).mono ?_).ensures
  rintro r (⟨e, he, h⟩ | ⟨v, st', hv, h⟩)
  · exact Or.inl ⟨⟨e, he⟩, h⟩
  · exact Or.inr ⟨v, st', hv, h⟩

/-- A square root function for the demonstration field: search. -/
instance : HasSqrt F7 where
  sqrt x := ((List.range 7).map (Nat.cast : Nat → F7)).find? fun y => y * y = x
  sqrt_some x y h := by simpa using List.find?_some h
  sqrt_none x h := by
    rintro ⟨y, rfl⟩
    revert h; revert y; decide

example : EnsuresE (M := Msg) (fun i => sqrt (one7 i)) states (fun r =>
    ((∃ e, ∀ i, r i = .error (.err e)) ∧
        ((¬ ∃ y, y * y = (1 : F7)) ∨ randValue F7 states = 0 ∨ randValue F7 (afterRand F7 states) = 0)) ∨
      (∃ v st', (∀ i, r i = .ok (v i, st' i)) ∧ (∃ y : F7, y * y = 1 ∧ IsShare v y) ∧ Corr .direct st')) :=
  C12_sqrt isShare_one7 corr_states

end Field

end Verif.Props
