import Verif.Yao.ProtocolLemmas
import Verif.Rep3.Cols
import Verif.Rep3.BinaryLemmas
import Mathlib.Data.Nat.Size
import Mathlib.Data.BitVec

/-!
# Rules for the conversions to and from Yao sharings
-/

namespace Verif.Yao

open PartyID
open Verif.Rep3
open Verif.Yao.Circ

theorem All3.of_map {α β γ δ : Type} {R : α → β → γ → Prop} {k : δ → γ} {as : List α} {bs : List β} {cs : List δ}
    (h : All3 R as bs (cs.map k)) : All3 (fun a b c => R a b (k c)) as bs cs := by
  induction cs generalizing as bs with
  | nil => cases h; exact .nil
  | cons c cs ih =>
    cases h with
    | cons h hs => exact .cons h (ih hs)

/-! ### Bits of field elements -/

section Bits

variable {p : Nat}

theorem lt_two_pow_modBits' (p : Nat) : p < 2 ^ modBits p := Nat.lt_size_self p

theorem length_fieldBits (x : ZMod p) : (fieldBits x).length = modBits p := length_uintToBits _ _

theorem val_fieldBits [NeZero p] (x : ZMod p) : val (fieldBits x) = x.val := by
  rw [fieldBits, val_uintToBits, Nat.mod_eq_of_lt]
  exact (ZMod.val_lt x).trans (lt_two_pow_modBits' p)

theorem fieldBits_eq [NeZero p] {bs : List Bool} {x : ZMod p} (hl : bs.length = modBits p) (hv : val bs = x.val) :
    bs = fieldBits x := val_inj (hl.trans (length_fieldBits x).symm) (hv.trans (val_fieldBits x).symm)

variable {I J : Type} {E : I → J → Bool → Prop}

theorem spec_adderField [NeZero p] (hp : p % 2 = 1) {u v : ZMod p} {xs ys : List I} {xs' ys' : List J}
    (hx : All3 E xs xs' (fieldBits u)) (hy : All3 E ys ys' (fieldBits v)) {outlen : Nat}
    (ho : outlen = modBits p) :
    CSpec E (fun r r' => All3 E r r' (fieldBits (u + v))) (adderModPOut p xs ys outlen)
      (adderModPOut p xs' ys' outlen) := by
  subst ho
  refine (spec_adderModPOut hp hx hy ?_ ?_ ?_ ?_ (modBits p)).mono ?_
  · rw [length_fieldBits, length_fieldBits]
  · rw [length_fieldBits]; exact lt_two_pow_modBits' p
  · rw [val_fieldBits]; exact ZMod.val_lt u
  · rw [val_fieldBits]; exact ZMod.val_lt v
  · rintro r r' ⟨ss, h, hl, hv⟩
    rw [fieldBits_eq (x := u + v) (bs := ss)] at h
    · exact h
    · rw [hl, length_fieldBits, Nat.min_self]
    · rw [hv, val_fieldBits, val_fieldBits, ZMod.val_add, Nat.mod_eq_of_lt]
      exact (Nat.mod_lt _ (NeZero.pos p)).trans (lt_two_pow_modBits' p)

theorem spec_adderModP [NeZero p] (hp : p % 2 = 1) {u v : ZMod p} {xs ys : List I} {xs' ys' : List J}
    (hx : All3 E xs xs' (fieldBits u)) (hy : All3 E ys ys' (fieldBits v)) :
    CSpec E (fun r r' => All3 E r r' (fieldBits (u + v))) (adderModP p xs ys) (adderModP p xs' ys') := by
  unfold adderModP
  rw [hx.len', ← hx.len]
  exact spec_adderField hp hx hy (hx.len.trans (length_fieldBits u))

theorem spec_adderModPMany [NeZero p] (hp : p % 2 = 1) {us vs : List (ZMod p)} {xs ys : List I} {xs' ys' : List J}
    (hx : All3 E xs xs' (us.flatMap fieldBits)) (hy : All3 E ys ys' (vs.flatMap fieldBits)) :
    CSpec E (fun r r' => All3 (All3 E) r r' ((us.zip vs).map fun z => fieldBits (z.1 + z.2)))
      (adderModPMany p (modBits p) xs ys) (adderModPMany p (modBits p) xs' ys') := by
  have hw : 0 < modBits p := by
    have := NeZero.pos p
    unfold modBits
    exact Nat.size_pos.2 this
  have h1 : All3 (All3 E) (chunks (modBits p) xs) (chunks (modBits p) xs') (us.map fieldBits) :=
    all3_chunks hw (by simp [length_fieldBits]) (by rw [← List.flatMap_def]; exact hx)
  have h2 : All3 (All3 E) (chunks (modBits p) ys) (chunks (modBits p) ys') (vs.map fieldBits) :=
    all3_chunks hw (by simp [length_fieldBits]) (by rw [← List.flatMap_def]; exact hy)
  have h3 := h1.zip h2
  have e : (us.map fieldBits).zip (vs.map fieldBits) =
      (us.zip vs).map fun z => (fieldBits z.1, fieldBits z.2) := by
    rw [List.zip_map]; rfl
  rw [e] at h3
  exact CSpec.mapM (E := E) (S := All3 E) (fun z : ZMod p × ZMod p => fieldBits (z.1 + z.2))
    (fun a b z h => spec_adderField hp h.1 h.2 rfl) h3.of_map

end Bits

/-! ### Types of values on wires -/

/-- Elements take `size` wires, and addition on wires is addition. -/
structure WireType.Lawful {α : Type} [AddCommGroup α] (W : WireType α) : Prop where
  length : ∀ v, (W.bits v).length = W.size
  add : ∀ {d : Label} {u v : α} {xs xs' ys ys' : List Label}, All3 (Enc d) xs xs' (W.bits u) →
    All3 (Enc d) ys ys' (W.bits v) →
    CSpec (Enc d) (fun r r' => All3 (Enc d) r r' (W.bits (u + v))) (W.add xs ys) (W.add xs' ys')

theorem fieldType_lawful {p : Nat} [NeZero p] (hp : p % 2 = 1) : (fieldType p).Lawful :=
  ⟨length_fieldBits, fun hx hy => spec_adderModP hp hx hy⟩

theorem length_ringBits {k : Nat} (x : BitVec k) : (ringBits x).length = k := length_uintToBits _ _

theorem val_ringBits {k : Nat} (x : BitVec k) : val (ringBits x) = x.toNat := by
  rw [ringBits, val_uintToBits, Nat.mod_eq_of_lt x.isLt]

theorem ringBits_eq {k : Nat} {bs : List Bool} {x : BitVec k} (hl : bs.length = k) (hv : val bs = x.toNat) :
    bs = ringBits x := val_inj (hl.trans (length_ringBits x).symm) (hv.trans (val_ringBits x).symm)

theorem ringType_lawful {k : Nat} (hk : 0 < k) : (ringType k).Lawful := by
  refine ⟨length_ringBits, fun {d u v xs xs' ys ys'} hx hy => ?_⟩
  have hx : All3 (Enc d) xs xs' (ringBits u) := hx
  have hy : All3 (Enc d) ys ys' (ringBits v) := hy
  refine (spec_binAdditionNoCarry hx hy (by rw [length_ringBits, length_ringBits]) ?_).mono ?_
  · intro e
    have := length_ringBits u
    rw [e] at this
    simp at this
    omega
  · rintro r r' ⟨ss, h, hl, hv⟩
    rw [ringBits_eq (x := u + v) (bs := ss)] at h
    · exact h
    · rw [hl, length_ringBits]
    · rw [hv, val_ringBits, val_ringBits, length_ringBits, BitVec.toNat_add]

/-! ### From arithmetic sharings -/

section A2Y

variable {R M : Type} {p : Nat} [NeZero p] [YaoRng R] [YaoNet M] {ty : A2BType} {st : PartyID → Rep3State R}
  {α : Type} [AddCommGroup α] {W : WireType α}

theorem share_split {x : PartyID → Share α} {v : α} (hx : IsShare x v) :
    (x ID1).a + (x ID1).b + (x ID2).a = v := by
  have h1 : (x ID1).b = (x ID0).a := hx.1 ID1
  rw [h1, ← hx.2]
  abel

theorem spec_addedMany (hW : W.Lawful) {x : PartyID → List (Share α)} {n : Nat} (hn : ∀ i, (x i).length = n)
    {delta : PartyID → Option Label} {d : Label} (hd : IsDelta delta d) (hst : Corr ty st) :
    Spec (M := M) (fun i => jointInputArithmeticAddedMany W (x i) (delta i)) st (fun r st' =>
      (IsYShare d (fun i => (r i).1) ((x ID1).flatMap fun s => W.bits (s.a + s.b)) ∧
        IsYShare d (fun i => (r i).2) ((x ID2).flatMap fun s => W.bits s.a)) ∧ Corr ty st') := by
  have key := spec_jointInput (M := M) (n := n * W.size)
    (bits1 := fun i => (x i).flatMap fun s => W.bits (s.a + s.b))
    (bits2 := fun i => (x i).flatMap fun s => W.bits s.a) hd
    (by simp [List.length_flatMap, hW.length, hn]) (by simp [List.length_flatMap, hW.length, hn]) hst
  unfold jointInputArithmeticAddedMany
  simp only [hn]
  exact key

theorem spec_added (hW : W.Lawful) {x : PartyID → Share α} {v : α} (hx : IsShare x v)
    {delta : PartyID → Option Label} {d : Label} (hd : IsDelta delta d) (hst : Corr ty st) :
    Spec (M := M) (fun i => jointInputArithmeticAdded W (x i) (delta i)) st (fun r st' =>
      (CSpec (Enc d) (fun y y' => All3 (Enc d) y y' (W.bits v)) (W.add (r ID1).1 (r ID1).2)
          (W.add (r ID0).1 (r ID0).2) ∧
        W.add (r ID2).1 (r ID2).2 = W.add (r ID1).1 (r ID1).2) ∧ Corr ty st') := by
  refine (spec_addedMany hW (x := fun i => [x i]) (n := 1) (fun _ => rfl) hd hst).mono ?_
  rintro r st' ⟨⟨h1, h2⟩, hst'⟩
  simp only [List.flatMap_cons, List.flatMap_nil, List.append_nil] at h1 h2
  obtain ⟨h1, e1⟩ := isYShare_iff.1 h1
  obtain ⟨h2, e2⟩ := isYShare_iff.1 h2
  have hc := hW.add h1 h2
  rw [share_split hx] at hc
  exact ⟨⟨hc, by rw [e1, e2]⟩, hst'⟩

theorem spec_a2yOf (hW : W.Lawful) {x : PartyID → Share α} {v : α} (hx : IsShare x v)
    {delta : PartyID → Option Label} {d : Label} (hd : IsDelta delta d) (hst : Corr ty st) :
    Spec (M := M) (fun i => a2yOf W (x i) (delta i)) st (fun r st' =>
      IsYShare d r (W.bits v) ∧ Corr ty st') := by
  refine (spec_added hW hx hd hst).bind ?_
  rintro r st' ⟨⟨hc, e⟩, hst'⟩
  refine (spec_evalShared (c := fun i => W.add (r i).1 (r i).2) hd hc e hst').mono ?_
  rintro y st'' ⟨⟨hy, e⟩, h⟩
  exact ⟨isYShare_iff.2 ⟨hy, e⟩, h⟩

theorem spec_a2y (hp : p % 2 = 1) {x : PartyID → Share (ZMod p)} {v : ZMod p} (hx : IsShare x v)
    {delta : PartyID → Option Label} {d : Label} (hd : IsDelta delta d) (hst : Corr ty st) :
    Spec (M := M) (fun i => a2y (x i) (delta i)) st (fun r st' =>
      IsYShare d r (fieldBits v) ∧ Corr ty st') :=
  spec_a2yOf (fieldType_lawful hp) hx hd hst

theorem cols_of_all3 {d : Label} {r : PartyID → List (List Label)} {bs : List (List Bool)}
    (h : All3 (All3 (Enc d)) (r ID1) (r ID0) bs) (h2 : r ID2 = r ID1) : Cols (IsYShare d) r bs := by
  have key : ∀ {as as' : List (List Label)} {bs : List (List Bool)}, All3 (All3 (Enc d)) as as' bs →
      Cols (IsYShare d) (three as' as as) bs := by
    intro as as' bs h
    induction h with
    | nil =>
      have : (three [] [] [] : PartyID → List (List Label)) = fun _ => [] := by funext i; cases i <;> rfl
      rw [this]; exact Cols.nil
    | @cons a a' b as as' bs h _ ih =>
      have : three (a' :: as') (a :: as) (a :: as) = fun i => three a' a a i :: three as' as as i := by
        funext i; cases i <;> rfl
      rw [this]
      exact Cols.cons (isYShare_iff.2 ⟨h, rfl⟩) ih
  have := key h
  convert this using 1
  funext i
  cases i
  · rfl
  · rfl
  · exact h2

theorem splits {x : PartyID → List (Share (ZMod p))} {vs : List (ZMod p)} (hx : IsShares x vs) :
    (((x ID1).map fun s => s.a + s.b).zip ((x ID2).map fun s => s.a)).map
      (fun z => fieldBits (z.1 + z.2)) = vs.map fieldBits := by
  obtain ⟨l, rfl, hl⟩ := hx
  simp only [List.map_map]
  induction hl with
  | nil => rfl
  | cons h _ ih => simp [ih, share_split h]

theorem spec_a2yMany (hp : p % 2 = 1) {x : PartyID → List (Share (ZMod p))} {vs : List (ZMod p)}
    (hx : IsShares x vs)
    {delta : PartyID → Option Label} {d : Label} (hd : IsDelta delta d) (hst : Corr ty st) :
    Spec (M := M) (fun i => a2yMany (x i) (delta i)) st (fun r st' =>
      Cols (IsYShare d) r (vs.map fieldBits) ∧ Corr ty st') := by
  have hx : Cols IsShare x vs := hx
  refine (spec_addedMany (fieldType_lawful hp) (n := vs.length) (fun i => hx.length i) hd hst).bind ?_
  rintro r st' ⟨⟨h1, h2⟩, hst'⟩
  obtain ⟨h1, e1⟩ := isYShare_iff.1 h1
  obtain ⟨h2, e2⟩ := isYShare_iff.1 h2
  have hc := spec_adderModPMany hp (us := (x ID1).map fun s => s.a + s.b) (vs := (x ID2).map fun s => s.a)
    (by rw [List.flatMap_map]; exact h1) (by rw [List.flatMap_map]; exact h2)
  have e : (((x ID1).map fun s => s.a + s.b).zip ((x ID2).map fun s => s.a)).map
      (fun z => fieldBits (z.1 + z.2)) = vs.map fieldBits := by
    exact splits hx
  rw [e] at hc
  refine (spec_evalShared (c := fun i => adderModPMany p (modBits p) (r i).1 (r i).2) hd hc ?_ hst').mono ?_
  · show adderModPMany p _ (r ID2).1 (r ID2).2 = _
    rw [e1, e2]
  · rintro y st'' ⟨⟨hy, e⟩, h⟩
    exact ⟨cols_of_all3 hy e, h⟩

end A2Y

/-! ### Colours -/

section Collapse

variable {w : Nat}

theorem collapse_eq (x : List Label) : collapse w x = BitVec.ofNat w (val (x.map Label.color)) := by
  induction x with
  | nil => rfl
  | cons a x ih =>
    show (collapse w x <<< 1) + BitVec.ofNat w a.color.toNat = _
    rw [ih]
    simp only [List.map_cons, val]
    apply BitVec.eq_of_toNat_eq
    simp only [BitVec.toNat_add, BitVec.toNat_shiftLeft, BitVec.toNat_ofNat, Nat.shiftLeft_eq, pow_one]
    rw [← Nat.add_mod, Nat.mul_comm, Nat.add_comm]
    conv_lhs => rw [Nat.add_mod, Nat.mul_mod, Nat.mod_mod, ← Nat.mul_mod, ← Nat.add_mod]

theorem testBit_val (l : List Bool) (i : Nat) : (val l).testBit i = l.getD i false := by
  induction l generalizing i with
  | nil => simp [val]
  | cons b l ih =>
    cases i with
    | zero => cases b <;> simp [val, Nat.testBit_zero, Nat.add_mod]
    | succ i =>
      rw [Nat.testBit_succ]
      have : val (b :: l) / 2 = val l := by
        simp only [val]
        have := Bool.toNat_lt b
        omega
      rw [this, ih]
      simp

theorem color_enc {d g e : Label} {b : Bool} (hd : d.color = true) (h : Enc d g e b) :
    e.color = (g.color ^^ b) := by
  subst h
  cases b <;> simp_all [Label.color, Label.cmul]

theorem collapse_enc {d : Label} (hd : d.color = true) {gs es : List Label} {bs : List Bool}
    (h : All3 (Enc d) gs es bs) : collapse w es = collapse w gs ^^^ BitVec.ofNat w (val bs) := by
  rw [collapse_eq, collapse_eq]
  apply BitVec.eq_of_getLsbD_eq
  intro i hi
  simp only [BitVec.getLsbD_xor, BitVec.getLsbD_ofNat, hi, decide_true, Bool.true_and, testBit_val]
  clear hi
  induction h generalizing i with
  | nil => rfl
  | cons h _ ih =>
    cases i with
    | zero => simp [color_enc hd h]
    | succ i => simpa using ih i

end Collapse

/-! ### To binary sharings -/

section Y2B

variable {R M : Type} {w : Nat} [Sample R (BitVec w)] [UintCodec M w] {ty : A2BType}
  {st : PartyID → Rep3State R}

/-- The masks that a generator gives for bundles of these lengths. -/
def drawMany : List Nat → R → List (BitVec w) × R
  | [], g => ([], g)
  | n :: ns, g =>
    let (x, g) := Sample.sample (α := BitVec w) g
    let (xs, g) := drawMany ns g
    ((x &&& Uint.mask w n) :: xs, g)

omit [UintCodec M w] in
theorem y2bMany0 (i : PartyID) (x : List (List Label)) (s : Rep3State R) :
    (x.mapM (fun (xs : List Label) => do
      let r ← randomUint1 (w := w) xs.length
      pure (r, collapse w xs ^^^ r)) : Rep3M R M _) i s =
    .ret (List.zipWith (fun xs r => (r, collapse w xs ^^^ r)) x
        (drawMany (x.map List.length) s.rngs.rand.rng1).1,
      setRand s { s.rngs.rand with rng1 := (drawMany (w := w) (x.map List.length) s.rngs.rand.rng1).2 }) := by
  induction x generalizing s with
  | nil => rfl
  | cons xs x ih =>
    simp only [List.mapM_cons, MPC.bind_apply, randomUint1, withRand, withRngs, MPC.modifyGet_apply,
      Prog.ret_bind, MPC.pure_apply] at ih ⊢
    rw [ih]
    simp [drawMany, Rep3Rand.draw1, setRand]

omit [UintCodec M w] in
theorem y2bMany1 (i : PartyID) (x : List (List Label)) (s : Rep3State R) :
    (x.mapM (fun (xs : List Label) => do
      let r ← randomUint2 (w := w) xs.length
      pure (⟨collapse w xs, r⟩ : Share (BitVec w))) : Rep3M R M _) i s =
    .ret (List.zipWith (fun xs r => ⟨collapse w xs, r⟩) x
        (drawMany (x.map List.length) s.rngs.rand.rng2).1,
      setRand s { s.rngs.rand with rng2 := (drawMany (w := w) (x.map List.length) s.rngs.rand.rng2).2 }) := by
  induction x generalizing s with
  | nil => rfl
  | cons xs x ih =>
    simp only [List.mapM_cons, MPC.bind_apply, randomUint2, withRand, withRngs, MPC.modifyGet_apply,
      Prog.ret_bind, MPC.pure_apply] at ih ⊢
    rw [ih]
    simp [drawMany, Rep3Rand.draw2, setRand]

theorem isBShare_y2b {d : Label} (hd : d.color = true) {y : PartyID → List Label} {bits : List Bool}
    (hy : IsYShare d y bits) (r : BitVec w) :
    IsBShare (three ⟨r, collapse w (y ID0) ^^^ r⟩ ⟨collapse w (y ID1), r⟩
      ⟨collapse w (y ID0) ^^^ r, collapse w (y ID2)⟩) (BitVec.ofNat w (val bits)) := by
  obtain ⟨h, e⟩ := isYShare_iff.1 hy
  refine ⟨fun i => ?_, ?_⟩
  · cases i
    · rfl
    · rfl
    · show collapse w (y ID2) = collapse w (y ID1)
      rw [e]
  · show r ^^^ collapse w (y ID1) ^^^ (collapse w (y ID0) ^^^ r) = _
    rw [collapse_enc hd h]
    apply BitVec.eq_of_getLsbD_eq
    intro i _
    simp only [BitVec.getLsbD_xor]
    cases r.getLsbD i <;> cases (collapse w (y ID1)).getLsbD i <;> simp

theorem spec_y2b {d : Label} (hd : d.color = true) {y : PartyID → List Label} {bits : List Bool}
    (hy : IsYShare d y bits) (hst : Corr ty st) :
    Spec (M := M) (fun i => y2b (w := w) (y i)) st (fun r st' =>
      IsBShare r (BitVec.ofNat w (val bits)) ∧ Corr ty st') := by
  have h1 := hst.rand ID1
  simp only [PartyID.ID1_prev] at h1
  have e0 : (y ID0).length = (y ID1).length := by
    obtain ⟨h, -⟩ := isYShare_iff.1 hy
    rw [h.len, h.len']
  refine Spec3 ?_
  simp [y2b, stateId, hst.id, randomUint1, randomUint2, withRand, withRngs, sendTo, recvFrom, sendMany, recvMany,
    exactlyOne, MPC.recv_apply, Rep3Rand.draw1, Rep3Rand.draw2, h1, e0]
  refine ⟨?_, ?_⟩
  · exact isBShare_y2b hd hy _
  · constructor <;> (try intro i) <;> (try cases i) <;>
      simp [hst.id, hst.rand, hst.a2b, hst.bc1a, hst.bc1b, hst.bc1c, hst.bc2a, hst.bc2b, hst.bc2c]

theorem cols_y2b {d : Label} (hd : d.color = true) {y : PartyID → List (List Label)} {bss : List (List Bool)}
    (hy : Cols (IsYShare d) y bss) (rs : List (BitVec w)) (hl : rs.length = bss.length) :
    IsBShares (three
      (List.zipWith (fun xs r => ⟨r, collapse w xs ^^^ r⟩) (y ID0) rs)
      (List.zipWith (fun xs r => ⟨collapse w xs, r⟩) (y ID1) rs)
      (List.zipWith (fun xs r => ⟨r, collapse w xs⟩) (y ID2)
        (List.zipWith (fun xs r => collapse w xs ^^^ r) (y ID0) rs)))
      (bss.map fun bs => BitVec.ofNat w (val bs)) := by
  obtain ⟨l, rfl, hl'⟩ := hy
  show Cols IsBShare _ _
  induction hl' generalizing rs with
  | nil =>
    have : (three [] [] [] : PartyID → List (Share (BitVec w))) = fun _ => [] := by funext i; cases i <;> rfl
    simp only [List.map_nil, List.zipWith_nil_left]
    rw [this]; exact Cols.nil
  | @cons x bs l bss h _ ih =>
    cases rs with
    | nil => simp at hl
    | cons r rs =>
      have := Cols.cons (isBShare_y2b hd h r) (ih rs (by simpa using hl))
      refine cast ?_ this
      congr 1
      funext i
      cases i <;> rfl

theorem length_drawMany (ns : List Nat) (g : R) : (drawMany (w := w) ns g).1.length = ns.length := by
  induction ns generalizing g with
  | nil => rfl
  | cons n ns ih => simp [drawMany, ih]

theorem spec_y2bMany {d : Label} (hd : d.color = true) {y : PartyID → List (List Label)} {bss : List (List Bool)}
    (hy : Cols (IsYShare d) y bss) (hst : Corr ty st) :
    Spec (M := M) (fun i => y2bMany (w := w) (y i)) st (fun r st' =>
      IsBShares r (bss.map fun bs => BitVec.ofNat w (val bs)) ∧ Corr ty st') := by
  have h1 := hst.rand ID1
  simp only [PartyID.ID1_prev] at h1
  have e0 : (y ID0).map List.length = (y ID1).map List.length := by
    obtain ⟨l, e, hl⟩ := hy
    simp only [e, List.map_map]
    clear e
    induction hl with
    | nil => rfl
    | cons h _ ih =>
      obtain ⟨h, -⟩ := isYShare_iff.1 h
      simp [ih, h.len, h.len']
  refine Spec3 ?_
  simp only [y2bMany, stateId, hst.id, MPC.bind_apply, MPC.modifyGet_apply, MPC.get_apply, MPC.pure_apply, MPC.map_apply,
    Prog.ret_bind, y2bMany0, y2bMany1]
  simp [sendMany, recvMany, MPC.recv_apply, e0]
  refine ⟨?_, ?_⟩
  · rw [h1]
    refine cols_y2b hd hy (drawMany (w := w) ((y ID1).map List.length) (st ID0).rngs.rand.rng1).1 ?_
    rw [length_drawMany, List.length_map, hy.length]
  · constructor <;> (try intro i) <;> (try cases i) <;>
      simp [setRand, hst.id, hst.rand, hst.a2b, hst.bc1a, hst.bc1b, hst.bc1c, hst.bc2a, hst.bc2b, hst.bc2c, h1]

end Y2B

/-! ### From binary sharings -/

section B2Y

variable {R M : Type} {p w : Nat} [YaoRng R] [YaoNet M] {ty : A2BType} {st : PartyID → Rep3State R}

theorem run_bind {S α β : Type} (B : Backend S Label) (c : Circ Label α) (k : α → Circ Label β) (s : S) :
    (c.bind k).run B s = c.run B s >>= fun r => (k r.1).run B r.2 := by
  induction c generalizing s with
  | ret a => rfl
  | fail e => rfl
  | and a b f ih => simp only [Circ.bind, Circ.run, ih]; cases B.and a b s <;> rfl
  | xor a b f ih => simp only [Circ.bind, Circ.run, ih]; cases B.xor a b s <;> rfl
  | negate a f ih => simp only [Circ.bind, Circ.run, ih]; cases B.negate a s <;> rfl
  | zero f ih => simp only [Circ.bind, Circ.run, ih]; cases B.zero s <;> rfl
  | one f ih => simp only [Circ.bind, Circ.run, ih]; cases B.one s <;> rfl

theorem run_xorMany {S : Type} {B : Backend S Label} (hB : ∀ a b s, B.xor a b s = .ok (a ^^^ b, s))
    (xs ys : List Label) (s : S) :
    (xorMany xs ys).run B s = .ok ((xs.zip ys).map fun z => z.1 ^^^ z.2, s) := by
  unfold xorMany
  generalize xs.zip ys = l
  induction l with
  | nil => rfl
  | cons z l ih =>
    simp only [List.mapM_cons, gXor, Circ.bind_def, Circ.bind, Circ.run, hB, List.map_cons] at ih ⊢
    show Circ.run B (Circ.bind _ _) s = _
    rw [run_bind, ih]
    rfl

theorem all3_xor {d : Label} {gs es hs fs : List Label} {as bs : List Bool} (h : All3 (Enc d) gs es as)
    (h' : All3 (Enc d) hs fs bs) :
    All3 (Enc d) ((gs.zip hs).map fun z => z.1 ^^^ z.2) ((es.zip fs).map fun z => z.1 ^^^ z.2)
      ((as.zip bs).map fun z => z.1 ^^ z.2) := by
  refine (h.zip h').map ?_
  rintro ⟨a, a'⟩ ⟨b, b'⟩ ⟨c, c'⟩ ⟨h1, h2⟩
  simp only [Enc] at h1 h2 ⊢
  rw [h1, h2, cmul_xor]
  ac_rfl

theorem xor_uintToBits (x y n : Nat) :
    ((uintToBits x n).zip (uintToBits y n)).map (fun z => z.1 ^^ z.2) = uintToBits (x ^^^ y) n := by
  induction n generalizing x y with
  | zero => rfl
  | succ n ih =>
    simp only [uintToBits, List.zip_cons_cons, List.map_cons, List.cons.injEq]
    refine ⟨?_, ?_⟩
    · have e : ∀ z : Nat, (z % 2 == 1) = z.testBit 0 := fun z => by rw [Nat.testBit_zero]; rfl
      rw [e, e, e, Nat.testBit_xor]
    · rw [ih, Nat.xor_div_two]

theorem spec_b2yOf {n : Nat} {x : PartyID → Share (BitVec w)} {v : BitVec w} (hx : IsBShare x v)
    {delta : PartyID → Option Label} {d : Label} (hd : IsDelta delta d) (hst : Corr ty st) :
    Spec (M := M) (fun i => b2yOf n (x i) (delta i)) st (fun r st' =>
      IsYShare d r (uintToBits v.toNat n) ∧ Corr ty st') := by
  have key := spec_jointInput (M := M) (n := n)
    (bits1 := fun i => uintToBits ((x i).a ^^^ (x i).b).toNat n)
    (bits2 := fun i => uintToBits (x i).a.toNat n) hd
    (length_uintToBits _ _) (length_uintToBits _ _) hst
  refine key.bind ?_
  rintro r st' ⟨⟨h1, h2⟩, hst'⟩
  obtain ⟨h1, e1⟩ := isYShare_iff.1 h1
  obtain ⟨h2, e2⟩ := isYShare_iff.1 h2
  have h3 := all3_xor h1 h2
  rw [xor_uintToBits] at h3
  have e : ((x ID1).a ^^^ (x ID1).b).toNat ^^^ (x ID2).a.toNat = v.toNat := by
    rw [← BitVec.toNat_xor, hx.b1, ← hx.2]
    congr 2
    exact BitVec.xor_comm _ _
  rw [e] at h3
  have g1 := run_xorMany (B := Garbler.backend (R := R) (YaoNet.hash M)) (fun _ _ _ => rfl)
  have g2 := run_xorMany (B := Evaluator.backend (YaoNet.hash M)) (fun _ _ _ => rfl)
  have hst'' := corr_garblerSt hst'
  refine Spec3 ?_
  simp [stateId, hst'.id, hd.party1, hd.party2, needDelta, newWithDelta1 d hst', newWithDelta2 d hst', g1, g2, gcError]
  refine ⟨isYShare_iff.2 ⟨h3, ?_⟩, ?_⟩
  · simp only [three_1, three_2, e1, e2]
  · have := hst''
    rw [← three_eta (garblerSt st')] at this
    exact this

theorem spec_b2y {x : PartyID → Share (BitVec w)} {v : BitVec w} (hx : IsBShare x v)
    {delta : PartyID → Option Label} {d : Label} (hd : IsDelta delta d) (hst : Corr ty st) :
    Spec (M := M) (fun i => b2y p (x i) (delta i)) st (fun r st' =>
      IsYShare d r (uintToBits v.toNat (modBits p)) ∧ Corr ty st') := spec_b2yOf hx hd hst

end B2Y

/-! ### Opening the outputs of a circuit -/

section Open

variable {R M : Type} {w p : Nat} [YaoRng R] [YaoNet M] {ty : A2BType} {st : PartyID → Rep3State R}

theorem run_currentOutput (H : Hash) {α : Type} (c : Circ Label α) (g g' : Garbler R) (a : α)
    (h : c.run (Garbler.backend H) g = .ok (a, g')) : g'.currentOutput = g.currentOutput := by
  induction c generalizing g with
  | ret b =>
    have h : Except.ok (b, g) = Except.ok (a, g') := h
    cases h
    rfl
  | fail e => cases h
  | and x y k ih => exact (ih _ _ h).trans rfl
  | xor x y k ih => exact ih _ _ h
  | negate x k ih => exact ih _ _ h
  | zero k ih =>
    refine (ih _ _ h).trans ?_
    unfold Garbler.getZero
    split <;> rfl
  | one k ih =>
    refine (ih _ _ h).trans ?_
    unfold Garbler.getOne
    split <;> rfl

theorem outputEvaluator_delta (H : Hash) (xs : List Label) (g : Garbler R) :
    (g.outputEvaluator H xs).delta = g.delta := by
  induction xs generalizing g with
  | nil => rfl
  | cons x xs ih => exact (ih _).trans rfl

theorem spec_outputLabels {delta : PartyID → Option Label} {d : Label} (hd : IsDelta delta d)
    {c : PartyID → Circ Label (List Label)} {Q : List Label → List Label → Prop}
    (hc : CSpec (Enc d) Q (c ID1) (c ID0)) (h12 : c ID2 = c ID1) (hst : Corr ty st) :
    Spec (M := M) (fun i => outputLabels (delta i) (c i)) st (fun r st' =>
      ∃ zs g', (c ID1).run (Garbler.backend (YaoNet.hash M)) (Garbler.new d (garblerRng st)) = .ok (zs, g') ∧
        r ID1 = (some d, zs)) := by
  obtain ⟨a, g', b, e', new, k1, -, -, -, -⟩ := hc.adequate (R := R) (YaoNet.hash M) hd.color
    (Garbler.new d (garblerRng st)) (Evaluator.new []) (inStep_new d _ [])
  refine Spec3 ?_
  simp [outputLabels, garble, stateId, hst.id, hd.party1, hd.party2, needDelta, newWithDelta1 d hst,
    newWithDelta2 d hst, h12, k1, gcError]

theorem decodable_of_spec {delta : PartyID → Option Label} {d : Label} (hd : IsDelta delta d)
    {c : PartyID → Circ Label (List Label)} {Q : List Label → List Label → Prop}
    (hc : CSpec (Enc d) Q (c ID1) (c ID0)) (h12 : c ID2 = c ID1) (hst : Corr ty st)
    (hdec : Spec (M := M) (fun i => outputLabels (delta i) (c i)) st (fun r _ =>
      Separated (YaoNet.hash M) (r ID1))) {a : List Label} {g' : Garbler R}
    (k1 : (c ID1).run (Garbler.backend (YaoNet.hash M)) (Garbler.new d (garblerRng st)) = .ok (a, g')) :
    Decodable (YaoNet.hash M) d a := by
  obtain ⟨v, l, hr, hq⟩ := hdec
  obtain ⟨v', l', hr', zs, g'', q1, q2⟩ := spec_outputLabels (M := M) hd hc h12 hst
  have := (hr.unique hr').1
  have e : v ID1 = v' ID1 := by simpa using congrFun this ID1
  rw [k1] at q1
  cases q1
  simp only [e, q2] at hq
  obtain ⟨d', e', h⟩ := hq
  cases e'
  exact h

theorem spec_evalOpen01 {delta : PartyID → Option Label} {d : Label} (hd : IsDelta delta d)
    {c : PartyID → Circ Label (List Label)} {bits : List Bool}
    (hc : CSpec (Enc d) (fun r r' => All3 (Enc d) r r' bits) (c ID1) (c ID0)) (h12 : c ID2 = c ID1)
    (hst : Corr ty st)
    (hdec : Spec (M := M) (fun i => outputLabels (delta i) (c i)) st (fun r _ =>
      Separated (YaoNet.hash M) (r ID1))) :
    Spec (M := M) (fun i => evalOpen01 (delta i) (c i)) st (fun r st' =>
      r = three (some bits) (some bits) none ∧ Corr ty st') := by
  obtain ⟨a, g', b, e', new, k1, k2, k3, k4, k5⟩ := hc.adequate (R := R) (YaoNet.hash M) hd.color
    (Garbler.new d (garblerRng st)) (Evaluator.new []) (inStep_new d _ [])
  have hdec := decodable_of_spec hd hc h12 hst hdec k1
  have ho : g'.currentOutput = 0 := run_currentOutput (YaoNet.hash M) (c ID1) _ _ _ k1
  obtain ⟨e₂, new₂, m1, m2, -⟩ := adequate_outputs (YaoNet.hash M) k5 g' e' k4 (by
    intro i hi
    rw [ho, Nat.zero_add]
    exact hdec i hi)
  have k2 : g'.blocks = new := k2
  rw [k2] at m1
  have k3' : (c ID0).run (Evaluator.backend (YaoNet.hash M)) (Evaluator.new (new ++ new₂)) = _ := k3 new₂
  have m2 := m2 []
  rw [List.append_nil] at m2
  have hdel : (g'.outputEvaluator (YaoNet.hash M) a).delta = d := by
    rw [outputEvaluator_delta]; exact k4.delta
  have hdb := decodeBlocks_enc (ne_zero_of_color hd.color) k5
  have hst' := corr_garblerSt hst
  refine Spec3 ?_
  simp [evalOpen01, garble, stateId, hst.id, hst'.id, hd.party1, hd.party2, needDelta, newWithDelta1 d hst,
    newWithDelta2 d hst, h12, k1, gcError, orFail, sendCircuit, sendMany, recvMany, sendTo, recvFrom, exactlyOne,
    receiveCircuit, MPC.recv_apply, m1, k3', m2, hdel, hdb]
  have := hst'
  rw [← three_eta (garblerSt st)] at this
  exact this

end Open

/-! ### To arithmetic sharings -/

section Y2A

variable {R M : Type} {α : Type} [AddCommGroup α] [Sample R α] [YaoRng R] [YaoNet M] {ty : A2BType}
  {st : PartyID → Rep3State R} {W : WireType α}

omit [YaoRng R] [YaoNet M] in
theorem spec_composeKeys (hst : Corr ty st) :
    Spec (M := M) (fun i => composeKeys (α := α) i) st (fun res st' =>
      (∃ c2 c3 : α, res = three (0, ⟨0, -c3⟩) (0, ⟨-c2, 0⟩) (c2 + c3, ⟨-c3, -c2⟩)) ∧ Corr ty st') := by
  refine Spec3 ?_
  simp only [composeKeys, bitcomp1Keys, bitcomp2Keys, withRngs?, BitComp.random3, MPC.bind_apply, hst.bc1a,
    hst.bc1b, hst.bc1c, hst.bc2a, hst.bc2b, hst.bc2c, Option.map_some, Prog.ret_bind, MPC.pure_apply,
    W3_ret]
  refine ⟨⟨(Sample.sample (st ID1).rngs.bitcomp1.rng2).1 + (Sample.sample (st ID2).rngs.bitcomp1.rng2).1 +
      (Sample.sample (st ID1).rngs.bitcomp1.rng1).1,
    (Sample.sample (st ID2).rngs.bitcomp2.rng1).1 + (Sample.sample (st ID2).rngs.bitcomp2.rng2).1 +
      (Sample.sample (st ID0).rngs.bitcomp2.rng2).1, ?_⟩, ?_⟩
  · funext i
    cases i
    · simp only [three_0, Prod.mk.injEq, Share.mk.injEq, true_and]; abel
    · simp only [three_1, Prod.mk.injEq, Share.mk.injEq, true_and, and_true]; abel
    · rfl
  · constructor <;> (try intro i) <;> (try cases i) <;>
      simp [hst.id, hst.rand, hst.a2b, hst.bc1b, hst.bc2a]

omit [Sample R α] in
theorem spec_inputId2Many (hW : W.Lawful) {x : PartyID → Option (List α)} {xs : List α} (hx : x ID2 = some xs)
    {n : Nat} (hn : xs.length = n) {delta : PartyID → Option Label} {d : Label} (hd : delta ID2 = some d)
    (hst : Corr ty st) :
    Spec (M := M) (fun i => inputId2Many W (x i) (delta i) n) st (fun r st' =>
      IsYShare d r (xs.flatMap W.bits) ∧ Corr ty st') := by
  have a2 := all3_encodeBits d (xs.flatMap W.bits) (st ID2).rng
  have hl : (xs.flatMap W.bits).length = n * W.size := by
    simp [List.length_flatMap, hW.length, hn]
  have l2 : (encodeBits d (xs.flatMap W.bits) (st ID2).rng).1.1.length = n * W.size := a2.len.trans hl
  have l2' : (encodeBits d (xs.flatMap W.bits) (st ID2).rng).1.2.length = n * W.size := a2.len'.trans hl
  refine Spec3 ?_
  simp [inputId2Many, stateId, hst.id, hd, hx, hn, needDelta, encodeOwn, sendInputs, receiveBundle,
    sendMany, recvMany, MPC.recv_apply, l2, l2']
  refine ⟨isYShare_iff.2 ⟨a2, rfl⟩, corr_setRng hst ?_⟩
  intro i
  cases i
  · exact state_eta hst ID0
  · exact state_eta hst ID1
  · rfl

theorem spec_y2aInputs (hW : W.Lawful) {delta : PartyID → Option Label} {d : Label} (hd : IsDelta delta d)
    (hst : Corr ty st) :
    Spec (M := M) (fun i => y2aInputs W (delta i)) st (fun r st' =>
      (∃ c2 c3 : α, (fun i => (r i).1) = three ⟨0, -c3⟩ ⟨-c2, 0⟩ ⟨-c3, -c2⟩ ∧
        IsYShare d (fun i => (r i).2) (W.bits (c2 + c3))) ∧ Corr ty st') := by
  have key : Spec (M := M) (fun i => do
      let z ← composeKeys (α := α) i
      let x23 ← inputId2 W (match i with | ID2 => some z.1 | _ => none)
        (match i with | ID2 => some d | _ => none)
      pure (z.2, x23)) st (fun r st' =>
      (∃ c2 c3 : α, (fun i => (r i).1) = three ⟨0, -c3⟩ ⟨-c2, 0⟩ ⟨-c3, -c2⟩ ∧
        IsYShare d (fun i => (r i).2) (W.bits (c2 + c3))) ∧ Corr ty st') := by
    refine (spec_composeKeys hst).bind ?_
    rintro z st' ⟨⟨c2, c3, rfl⟩, hst'⟩
    refine (spec_inputId2Many hW (xs := [c2 + c3]) (d := d) rfl rfl rfl hst').bind ?_
    rintro y st'' ⟨hy, hst''⟩
    refine Spec.pure ⟨⟨c2, c3, ?_, ?_⟩, hst''⟩
    · funext i; cases i <;> rfl
    · simpa using hy
  refine cast ?_ key
  unfold Spec
  congr 1
  funext i
  cases i <;> simp [y2aInputs, stateId, hst.id, hd.party1, hd.party2, needDelta]

omit [YaoRng R] [YaoNet M] [Sample R α] in
theorem spec_y2aFinish {ofBits : List Bool → Except Err α} (hof : ∀ v, ofBits (W.bits v) = .ok v)
    {r : PartyID → Share α × List Label} {c2 c3 v : α}
    (hr : (fun i => (r i).1) = three ⟨0, -c3⟩ ⟨-c2, 0⟩ ⟨-c3, -c2⟩) (hst : Corr ty st) :
    Spec (M := M) (fun i => y2aFinish ofBits (r i).1
      ((three (some (W.bits (v + (c2 + c3)))) (some (W.bits (v + (c2 + c3)))) none :
        PartyID → Option (List Bool)) i)) st
      (fun r st' => IsShare r v ∧ Corr ty st') := by
  have r0 : (r ID0).1 = ⟨0, -c3⟩ := congrFun hr ID0
  have r1 : (r ID1).1 = ⟨-c2, 0⟩ := congrFun hr ID1
  have r2 : (r ID2).1 = ⟨-c3, -c2⟩ := congrFun hr ID2
  refine Spec3 ?_
  simp [y2aFinish, stateId, hst.id, orFail, hof, r0, r1, r2]
  refine ⟨⟨fun i => ?_, ?_⟩, ?_⟩
  · cases i <;> rfl
  · show v + (c2 + c3) + -c2 + -c3 = v
    abel
  · rw [three_eta st]; exact hst

/-- The circuit of `y2a`. -/
theorem spec_y2aCirc (hW : W.Lawful) {y : PartyID → List Label} {v : α}
    {delta : PartyID → Option Label} {d : Label} (hd : IsDelta delta d) (hy : IsYShare d y (W.bits v))
    (hst : Corr ty st) :
    Spec (M := M) (fun i => y2aInputs W (delta i)) st (fun r st' =>
      (∃ c2 c3 : α, (fun i => (r i).1) = three ⟨0, -c3⟩ ⟨-c2, 0⟩ ⟨-c3, -c2⟩ ∧
        CSpec (Enc d) (fun r r' => All3 (Enc d) r r' (W.bits (v + (c2 + c3)))) (W.add (y ID1) (r ID1).2)
          (W.add (y ID0) (r ID0).2) ∧ W.add (y ID2) (r ID2).2 = W.add (y ID1) (r ID1).2) ∧ Corr ty st') := by
  obtain ⟨hy, ey⟩ := isYShare_iff.1 hy
  refine (spec_y2aInputs hW hd hst).mono ?_
  rintro r st' ⟨⟨c2, c3, hr, hx⟩, hst'⟩
  obtain ⟨hx, ex⟩ := isYShare_iff.1 hx
  exact ⟨⟨c2, c3, hr, hW.add hy hx, by rw [ex, ey]⟩, hst'⟩

theorem spec_y2aOf (hW : W.Lawful) {ofBits : List Bool → Except Err α} (hof : ∀ v, ofBits (W.bits v) = .ok v)
    {y : PartyID → List Label} {v : α}
    {delta : PartyID → Option Label} {d : Label} (hd : IsDelta delta d) (hy : IsYShare d y (W.bits v))
    (hst : Corr ty st)
    (hdec : Spec (M := M) (fun i => y2aLabels W (y i) (delta i)) st (fun r _ =>
      Separated (YaoNet.hash M) (r ID1))) :
    Spec (M := M) (fun i => y2aOf W ofBits (y i) (delta i)) st (fun r st' => IsShare r v ∧ Corr ty st') := by
  have hin := Spec.bind_inv (spec_y2aCirc (M := M) hW hd hy hst) (by
    rintro r st' ⟨⟨c2, c3, hr, hc, e⟩, hst'⟩
    exact (spec_outputLabels (c := fun i => W.add (y i) (r i).2) hd hc e hst').mono fun _ _ _ => trivial) hdec
  refine hin.bind ?_
  rintro r st' ⟨⟨⟨c2, c3, hr, hc, e⟩, hst'⟩, hdec⟩
  refine (spec_evalOpen01 (c := fun i => W.add (y i) (r i).2) hd hc e hst' hdec).bind ?_
  rintro x1 st'' ⟨rfl, hst''⟩
  exact spec_y2aFinish hof hr hst''

end Y2A

section Y2AField

variable {R M : Type} {w p : Nat} [NeZero p] [Sample R (ZMod p)] [YaoRng R] [YaoNet M] {ty : A2BType}
  {st : PartyID → Rep3State R}

omit [Sample R (ZMod p)] [YaoRng R] [YaoNet M] in
theorem bitsToField_fieldBits (hw : modBits p ≤ w) (v : ZMod p) :
    bitsToField w p (fieldBits v) = .ok v := by
  have hl := length_fieldBits v
  unfold bitsToField
  rw [List.drop_eq_nil_of_le (by omega), List.take_of_length_le (by omega)]
  have e : ∀ l : List Bool, l.foldr (fun b acc => 2 * acc + b.toNat) 0 = val l := by
    intro l
    induction l with
    | nil => rfl
    | cons b l ih => simp only [List.foldr_cons, ih, val]; omega
  have hv := ZMod.val_lt v
  simp only [List.not_mem_nil, if_false, e, val_fieldBits]
  rw [if_neg (by omega), ZMod.natCast_zmod_val]

theorem spec_y2a (hp : p % 2 = 1) (hw : modBits p ≤ w) {y : PartyID → List Label} {v : ZMod p}
    {delta : PartyID → Option Label} {d : Label} (hd : IsDelta delta d) (hy : IsYShare d y (fieldBits v))
    (hst : Corr ty st)
    (hdec : Spec (M := M) (fun i => y2aLabels (fieldType p) (y i) (delta i)) st (fun r _ =>
      Separated (YaoNet.hash M) (r ID1))) :
    Spec (M := M) (fun i => y2a (p := p) w (y i) (delta i)) st (fun r st' => IsShare r v ∧ Corr ty st') :=
  spec_y2aOf (fieldType_lawful hp) (bitsToField_fieldBits hw) hd hy hst hdec

end Y2AField

end Verif.Yao
