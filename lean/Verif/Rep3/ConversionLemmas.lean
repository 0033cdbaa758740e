import Verif.Rep3.Conversion
import Verif.Rep3.DetailLemmas
import Verif.Rep3.ArithLemmas
import Mathlib.Data.Nat.Size

/-!
# Lemmas about the conversions and comparisons
-/

namespace Verif.Rep3

open PartyID
open MPC (bail panicWith)

variable {R M : Type} {w p : Nat} {ty : A2BType} {st : PartyID → Rep3State R}

section Pure

theorem modBits_pos [NeZero p] : 0 < modBits p := Nat.size_pos.2 (NeZero.pos p)

theorem lt_two_pow_modBits : p < 2 ^ modBits p := Nat.lt_size_self p

theorem ofField_toNat [NeZero p] (hw : modBits p ≤ w) (x : ZMod p) : (Uint.ofField w x).toNat = x.val := by
  have h1 := ZMod.val_lt x
  have h2 : p < 2 ^ modBits p := lt_two_pow_modBits
  have h3 : 2 ^ modBits p ≤ 2 ^ w := Nat.pow_le_pow_right (by decide) hw
  rw [Uint.ofField, BitVec.toNat_ofNat, Nat.mod_eq_of_lt (by omega)]

/-- Masks that cancel. -/
theorem xor_own (x a b c : BitVec w) : (a ^^^ c) ^^^ (x ^^^ (b ^^^ a)) ^^^ (c ^^^ b) = x := by
  ext i hi
  simp only [BitVec.getElem_xor]
  cases x[i] <;> cases a[i] <;> cases b[i] <;> cases c[i] <;> rfl

theorem xor_own2 (x a b c : BitVec w) : (a ^^^ c) ^^^ (b ^^^ a) ^^^ (x ^^^ (c ^^^ b)) = x := by
  ext i hi
  simp only [BitVec.getElem_xor]
  cases x[i] <;> cases a[i] <;> cases b[i] <;> cases c[i] <;> rfl

theorem isBShare_a2bOther {x : PartyID → Share (ZMod p)} {v : ZMod p} (hx : IsShare x v) :
    IsBShare (fun i => a2bOther (w := w) i (x i)) (Uint.ofField w (x ID2).a) := by
  refine ⟨fun i => ?_, ?_⟩
  · cases i <;> simp [a2bOther, Share.bzero, hx.b0]
  · simp [a2bOther, Share.bzero]

end Pure

variable [Sample R (BitVec w)] [UintCodec M w]

theorem spec_a2b [NeZero p] {x : PartyID → Share (ZMod p)} {v : ZMod p} (hw : modBits p + 2 ≤ w)
    (hx : IsShare x v) (hst : Corr ty st) :
    Spec (M := M) (fun i => a2b (w := w) (x i)) st (fun r st' =>
      IsBShare r (Uint.ofField w v) ∧ Corr ty st') := by
  refine Spec.bind (Bin.spec_maskBits (modBits p) hst) ?_
  rintro m st' ⟨⟨r, rfl⟩, hst'⟩
  refine Spec.bind (spec_stateId hst') ?_
  rintro _ _ ⟨rfl, rfl⟩
  refine Spec.bind spec_reshare ?_
  rintro z st'' ⟨rfl, rfl⟩
  have h1 : IsBShare (fun i => Share.mk (a2bOwn i (x i) (r i ^^^ r i.prev))
      (a2bOwn i.prev (x i.prev) (r i.prev ^^^ r i.prev.prev)))
      (BitVec.ofNat w ((x ID1).a + (x ID1).b).val) := by
    refine isBShare_mk (x := fun i => a2bOwn i (x i) (r i ^^^ r i.prev)) ?_
    simp only [a2bOwn, ID0_prev, ID1_prev, ID2_prev]
    exact xor_own _ _ _ _
  have key := Bin.spec_lowDepthBinaryAddModP (M := M) p (modBits p) modBits_pos (by omega) h1
    (isBShare_a2bOther (w := w) hx) (ZMod.val_lt _) (ZMod.val_lt _) lt_two_pow_modBits hst'
  rw [← ZMod.val_add] at key
  have e : (x ID1).a + (x ID1).b + (x ID2).a = v := by
    rw [hx.b1, ← hx.2]; ring
  rw [e] at key
  exact key

theorem spec_maskBitsMany {α : Type} {x : PartyID → List α} (n : Nat) (k : Nat)
    (hx : ∀ i, (x i).length = n) (hst : Corr ty st) :
    Spec (M := M) (fun i => (x i).mapM fun (_ : α) => Bin.maskBits (w := w) k) st (fun r st' =>
      (∃ l : List (PartyID → BitVec w), l.length = n ∧
        r = fun i => l.map fun m => m i ^^^ m i.prev) ∧ Corr ty st') := by
  have hc : Cols (fun (_ : PartyID → α) (_ : Unit) => True) x (List.replicate n ()) :=
    Cols.of_get n hx (by simp) (fun _ _ => trivial)
  refine (Spec.mapCols (P := fun _ _ => True)
    (Q := fun (m : PartyID → BitVec w) (_ : Unit) => ∃ r : PartyID → BitVec w,
      m = fun i => r i ^^^ r i.prev) (g := fun _ => ()) hc ?_ hst).mono ?_
  · rintro x v st - hst
    exact Bin.spec_maskBits k hst
  · rintro r st' ⟨⟨l, rfl, hl⟩, hst'⟩
    refine ⟨?_, hst'⟩
    have hlen := hl.length_eq
    simp only [List.length_map, List.length_replicate] at hlen
    have : ∃ l' : List (PartyID → BitVec w), l = l'.map fun m i => m i ^^^ m i.prev := by
      clear hlen hc
      generalize List.map (fun _ : Unit => ()) (List.replicate n ()) = u at hl
      induction hl with
      | nil => exact ⟨[], rfl⟩
      | cons h _ ih =>
        obtain ⟨r, rfl⟩ := h
        obtain ⟨l', rfl⟩ := ih
        exact ⟨r :: l', rfl⟩
    obtain ⟨l', rfl⟩ := this
    exact ⟨l', by simpa using hlen, by simp [Function.comp_def]⟩

theorem spec_a2bMany [NeZero p] {x : PartyID → List (Share (ZMod p))} {vs : List (ZMod p)}
    (hw : modBits p + 2 ≤ w) (hx : IsShares x vs) (hst : Corr ty st) :
    Spec (M := M) (fun i => a2bMany (w := w) (x i)) st (fun r st' =>
      IsBShares r (vs.map (Uint.ofField w)) ∧ Corr ty st') := by
  refine Spec.bind (spec_maskBitsMany vs.length (modBits p) (Cols.length hx) hst) ?_
  rintro m st' ⟨⟨r, hr, rfl⟩, hst'⟩
  refine Spec.bind (spec_stateId hst') ?_
  rintro _ _ ⟨rfl, rfl⟩
  refine Spec.bind spec_reshareMany ?_
  rintro z st'' ⟨rfl, rfl⟩
  obtain ⟨l, rfl, hl⟩ := hx
  have hlen := hl.length_eq
  have h1 : IsBShares (fun i => List.zipWith Share.mk
      (List.zipWith (a2bOwn i) (l.map (· i)) (r.map fun m => m i ^^^ m i.prev))
      (List.zipWith (a2bOwn i.prev) (l.map (· i.prev)) (r.map fun m => m i.prev ^^^ m i.prev.prev)))
      ((l.map fun x => (((x ID1).a + (x ID1).b).val, (x ID2).a.val)).map fun v => BitVec.ofNat w v.1) := by
    refine Cols.of_get l.length (by intro i; simp [hlen, hr]) (by simp) ?_
    intro k hk
    simp only [List.getElem_zipWith, List.getElem_map]
    refine isBShare_mk (x := fun i => a2bOwn i (l[k] i) (r[k] i ^^^ r[k] i.prev)) ?_
    simp only [a2bOwn, ID0_prev, ID1_prev, ID2_prev]
    exact xor_own _ _ _ _
  have h2 : IsBShares (fun i => (l.map (· i)).map (a2bOther i))
      ((l.map fun x => (((x ID1).a + (x ID1).b).val, (x ID2).a.val)).map fun v => BitVec.ofNat w v.2) := by
    refine Cols.of_get l.length (by intro i; simp) (by simp) ?_
    intro k hk
    simp only [List.getElem_map]
    exact isBShare_a2bOther ((List.forall₂_iff_get.1 hl).2 k hk (by omega))
  have key := Bin.spec_lowDepthBinaryAddModPMany (M := M) p (modBits p) modBits_pos (by omega) h1 h2
    (by
      intro v hv
      obtain ⟨u, -, rfl⟩ := List.mem_map.1 hv
      exact ⟨ZMod.val_lt _, ZMod.val_lt _⟩) (NeZero.pos p) lt_two_pow_modBits hst'
  refine key.mono ?_
  rintro r st'' ⟨hr, hst''⟩
  refine ⟨?_, hst''⟩
  convert hr using 1
  apply List.ext_getElem
  · simp [hlen]
  · intro k hk hk'
    simp only [List.getElem_map]
    rw [← ZMod.val_add, Uint.ofField]
    have hx := (List.forall₂_iff_get.1 hl).2 k (by simpa using hk') (by simpa using hk)
    simp only [List.get_eq_getElem] at hx
    rw [← hx.2, hx.b1]
    congr 2
    ring

section Keys

variable [Sample R (ZMod p)] [Codec M (List (ZMod p))]

omit [Sample R (BitVec w)] [UintCodec M w] [Codec M (List (ZMod p))] in
theorem spec_b2aKeys {r : PartyID → BitVec w} (hst : Corr ty st) :
    Spec (M := M) (fun i => b2aKeys (p := p) i (r i)) st (fun res st' =>
      (∃ c2 c3 : ZMod p, res = three (r ID0, ⟨0, -c3⟩) (r ID1, ⟨-c2, 0⟩)
        (Uint.ofField w (c2 + c3) ^^^ r ID2, ⟨-c3, -c2⟩)) ∧ Corr ty st') := by
  refine Spec3 ?_
  simp only [b2aKeys, bitcomp1Fes, bitcomp2Fes, withRngs?, BitComp.random3, MPC.bind_apply, hst.bc1a,
    hst.bc1b, hst.bc1c, hst.bc2a, hst.bc2b, hst.bc2c, Option.map_some, Prog.ret_bind, MPC.pure_apply,
    W3_ret]
  refine ⟨⟨(Sample.sample (st ID1).rngs.bitcomp1.rng2).1 + (Sample.sample (st ID2).rngs.bitcomp1.rng2).1 +
      (Sample.sample (st ID1).rngs.bitcomp1.rng1).1,
    (Sample.sample (st ID2).rngs.bitcomp2.rng1).1 + (Sample.sample (st ID2).rngs.bitcomp2.rng2).1 +
      (Sample.sample (st ID0).rngs.bitcomp2.rng2).1, ?_⟩, ?_⟩
  · funext i
    cases i
    · simp only [three_0, Prod.mk.injEq, Share.mk.injEq, true_and]; ring
    · simp only [three_1, Prod.mk.injEq, Share.mk.injEq, true_and, and_true]; ring
    · rfl
  · constructor <;> (try intro i) <;> (try cases i) <;>
      simp [hst.id, hst.rand, hst.a2b, hst.bc1b, hst.bc2a]

omit [Sample R (BitVec w)] [Sample R (ZMod p)] [Codec M (List (ZMod p))] in
theorem fromUint_apply {u : BitVec w} (h : u.toNat < p) (i : PartyID) (s : Rep3State R) :
    (fromUint u : Rep3M R M (ZMod p)) i s = .ret ((u.toNat : ZMod p), s) := by
  simp [fromUint, Uint.toFieldUnchecked, h]

theorem xor_open0 (a b c : BitVec w) : a ^^^ c ^^^ b = a ^^^ b ^^^ c := by
  rw [BitVec.xor_assoc, BitVec.xor_comm c b, BitVec.xor_assoc]

theorem xor_open1 (a b c : BitVec w) : b ^^^ a ^^^ c = a ^^^ b ^^^ c := by
  rw [BitVec.xor_comm b a]

omit [Sample R (BitVec w)] [Sample R (ZMod p)] [Codec M (List (ZMod p))] in
theorem spec_b2aOpen {z : PartyID → Share (BitVec w)} {u : BitVec w} (hz : IsBShare z u)
    (hu : u.toNat < p) (res : PartyID → Share (ZMod p)) :
    Spec (M := M) (fun i => b2aOpen i (z i) (res i)) st (fun r st' =>
      (r = three ⟨(u.toNat : ZMod p), (res ID0).b⟩ ⟨(res ID1).a, (u.toNat : ZMod p)⟩ (res ID2)) ∧
        st' = st) := by
  have e0 : (z ID0).a ^^^ (z ID2).a ^^^ (z ID1).a = u := by rw [xor_open0]; exact hz.2
  have e1 : (z ID1).a ^^^ (z ID0).a ^^^ (z ID2).a = u := by rw [xor_open1]; exact hz.2
  refine Spec3 ?_
  simp [b2aOpen, reshare, exactlyOne, reshareMany, sendAndRecvMany, sendMany, recvMany, MPC.recv_apply,
    recvPrev, recvFrom, sendNext, sendTo, hz.b0, hz.b1, hz.b2, e0, e1, fromUint_apply hu]
  exact three_eta _

theorem spec_b2a [NeZero p] {x : PartyID → Share (BitVec w)} {v : BitVec w} (hw : modBits p + 2 ≤ w)
    (hx : IsBShare x v) (hv : v.toNat < p) (hst : Corr ty st) :
    Spec (M := M) (fun i => b2a (p := p) (x i)) st (fun r st' =>
      IsShare r (v.toNat : ZMod p) ∧ Corr ty st') := by
  refine Spec.bind (Bin.spec_maskBits (modBits p) hst) ?_
  rintro m st' ⟨⟨r, rfl⟩, hst'⟩
  refine Spec.bind (spec_stateId hst') ?_
  rintro _ _ ⟨rfl, rfl⟩
  refine Spec.bind (spec_b2aKeys hst') ?_
  rintro _ st'' ⟨⟨c2, c3, rfl⟩, hst''⟩
  refine Spec.bind spec_reshare ?_
  rintro z st3 ⟨rfl, rfl⟩
  have hy : IsBShare (fun i => Share.mk
      ((three (r ID0 ^^^ r ID2, Share.mk (0 : ZMod p) (-c3)) (r ID1 ^^^ r ID0, ⟨-c2, 0⟩)
        (Uint.ofField w (c2 + c3) ^^^ (r ID2 ^^^ r ID1), ⟨-c3, -c2⟩) : PartyID → _) i).1
      ((three (r ID0 ^^^ r ID2, Share.mk (0 : ZMod p) (-c3)) (r ID1 ^^^ r ID0, ⟨-c2, 0⟩)
        (Uint.ofField w (c2 + c3) ^^^ (r ID2 ^^^ r ID1), ⟨-c3, -c2⟩) : PartyID → _) i.prev).1)
      (BitVec.ofNat w (c2 + c3).val) := by
    refine isBShare_mk (x := fun i => ((three (r ID0 ^^^ r ID2, Share.mk (0 : ZMod p) (-c3)) (r ID1 ^^^ r ID0, ⟨-c2, 0⟩)
        (Uint.ofField w (c2 + c3) ^^^ (r ID2 ^^^ r ID1), ⟨-c3, -c2⟩) : PartyID → _) i).1) ?_
    exact xor_own2 _ _ _ _
  have hx' : IsBShare x (BitVec.ofNat w v.toNat) := by simpa using hx
  refine Spec.bind (Bin.spec_lowDepthBinaryAddModP (M := M) p (modBits p) modBits_pos (by omega) hx' hy
    hv (ZMod.val_lt _) lt_two_pow_modBits hst'') ?_
  rintro z st4 ⟨hz, hst4⟩
  have hmod : (v.toNat + (c2 + c3).val) % p < p := Nat.mod_lt _ (NeZero.pos p)
  have hsz : (BitVec.ofNat w ((v.toNat + (c2 + c3).val) % p)).toNat = (v.toNat + (c2 + c3).val) % p := by
    have h2 : p < 2 ^ modBits p := lt_two_pow_modBits
    have h3 : 2 ^ modBits p ≤ 2 ^ w := Nat.pow_le_pow_right (by decide) (by omega)
    rw [BitVec.toNat_ofNat]
    exact Nat.mod_eq_of_lt (by omega)
  refine (spec_b2aOpen hz (by omega) _).mono ?_
  rintro r st5 ⟨rfl, rfl⟩
  refine ⟨?_, hst4⟩
  rw [hsz]
  refine ⟨?_, ?_⟩
  · intro i; cases i <;> rfl
  · simp
    ring

omit [Sample R (BitVec w)] [Sample R (ZMod p)] [Codec M (List (ZMod p))] in
theorem b2aFill_apply (id i : PartyID) (s : Rep3State R)
    (l : List (Share (ZMod p) × Share (BitVec w) × BitVec w))
    (h : ∀ t ∈ l, (t.2.1.a ^^^ t.2.1.b ^^^ t.2.2).toNat < p) :
    (b2aFill id (l.map fun t => t.1) (l.map fun t => t.2.1) (l.map fun t => t.2.2) : Rep3M R M _) i s =
      .ret (l.map (fun t => match id with
        | ID0 => { t.1 with a := ((t.2.1.a ^^^ t.2.1.b ^^^ t.2.2).toNat : ZMod p) }
        | _ => { t.1 with b := ((t.2.1.a ^^^ t.2.1.b ^^^ t.2.2).toNat : ZMod p) }), s) := by
  induction l generalizing s with
  | nil => rfl
  | cons t l ih =>
    simp only [List.map_cons, b2aFill, MPC.bind_apply, fromUint_apply (h t (by simp)), Prog.ret_bind,
      ih s (fun t ht => h t (by simp [ht]))]
    cases id <;> rfl

/-- One position of a vector when `b2a_many` is about to open the masked values: the binary sharing
of `v + c2 + c3`, and the parts of the result that are already in place. -/
def B2AMid (t : PartyID → (BitVec w × Share (ZMod p)) × Share (BitVec w)) (v : ZMod p) : Prop :=
  ∃ (c2 c3 : ZMod p) (u : ℕ), (u : ZMod p) = v + c2 + c3 ∧ u < p ∧
    IsBShare (fun i => (t i).2) (BitVec.ofNat w u) ∧
    (t ID0).1.2.b = -c3 ∧ (t ID1).1.2.a = -c2 ∧ (t ID2).1.2 = ⟨-c3, -c2⟩

omit [Sample R (BitVec w)] [Sample R (ZMod p)] [Codec M (List (ZMod p))] in
theorem spec_b2aOpenMany [NeZero p] (hw : modBits p ≤ w)
    {l : List (PartyID → (BitVec w × Share (ZMod p)) × Share (BitVec w))}
    {vs : List (ZMod p)}
    (hl : List.Forall₂ B2AMid l vs) :
    Spec (M := M) (fun i => b2aOpenMany i (l.map fun t => (t i).2) (l.map fun t => (t i).1.2)) st
      (fun r st' => IsShares r vs ∧ st' = st) := by
  have hlt : ∀ u, u < p → (BitVec.ofNat w u).toNat = u := by
    intro u hu
    have h2 : p < 2 ^ modBits p := lt_two_pow_modBits
    have h3 : 2 ^ modBits p ≤ 2 ^ w := Nat.pow_le_pow_right (by decide) (by omega)
    rw [BitVec.toNat_ofNat]
    exact Nat.mod_eq_of_lt (by omega)
  have hopen : ∀ t ∈ l, ∃ u, u < p ∧ (t ID0).2.a ^^^ (t ID0).2.b ^^^ (t ID2).2.b = BitVec.ofNat w u ∧
      (t ID1).2.a ^^^ (t ID1).2.b ^^^ (t ID0).2.b = BitVec.ofNat w u := by
    intro t ht
    obtain ⟨v, -, c2, c3, u, -, hu, hz, -⟩ : ∃ v ∈ vs, B2AMid t v := by
      clear hlt
      induction hl with
      | nil => simp at ht
      | @cons a v _ _ h _ ih =>
        rcases List.mem_cons.1 ht with rfl | ht
        · exact ⟨v, by simp, h⟩
        · obtain ⟨v', hv', h'⟩ := ih ht
          exact ⟨v', by simp [hv'], h'⟩
    refine ⟨u, hu, ?_, ?_⟩
    · rw [hz.b0, hz.b2, xor_open0]; exact hz.2
    · rw [hz.b1, hz.b0, xor_open1]; exact hz.2
  have f0 := fun (i : PartyID) (s : Rep3State R) => b2aFill_apply (M := M) ID0 i s
    (l.map fun t => ((t ID0).1.2, (t ID0).2, (t ID2).2.b)) (by
      intro q hq
      obtain ⟨t, ht, rfl⟩ := List.mem_map.1 hq
      obtain ⟨u, hu, h0, -⟩ := hopen t ht
      simp only [h0, hlt u hu]; exact hu)
  have f1 := fun (i : PartyID) (s : Rep3State R) => b2aFill_apply (M := M) ID1 i s
    (l.map fun t => ((t ID1).1.2, (t ID1).2, (t ID0).2.b)) (by
      intro q hq
      obtain ⟨t, ht, rfl⟩ := List.mem_map.1 hq
      obtain ⟨u, hu, -, h1⟩ := hopen t ht
      simp only [h1, hlt u hu]; exact hu)
  simp only [List.map_map, Function.comp_def] at f0 f1
  refine Spec3 ?_
  simp [b2aOpenMany, sendNextMany, recvPrevMany, sendMany, recvMany, MPC.recv_apply, List.map_map,
    Function.comp_def, f0, f1]
  refine ⟨?_, three_eta _⟩
  clear f0 f1 hopen
  have hlen := hl.length_eq
  refine Cols.of_get l.length (by intro i; cases i <;> simp) (by omega) ?_
  intro k hk
  obtain ⟨c2, c3, u, hu, hup, hz, e0, e1, e2⟩ := (List.forall₂_iff_get.1 hl).2 k hk (by omega)
  simp only [List.get_eq_getElem] at hu hz e0 e1 e2
  refine ⟨?_, ?_⟩
  · have o0 : (l[k] ID0).2.a ^^^ (l[k] ID0).2.b ^^^ (l[k] ID2).2.b = BitVec.ofNat w u := by
      rw [hz.b0, hz.b2, xor_open0]; exact hz.2
    have o1 : (l[k] ID1).2.a ^^^ (l[k] ID1).2.b ^^^ (l[k] ID0).2.b = BitVec.ofNat w u := by
      rw [hz.b1, hz.b0, xor_open1]; exact hz.2
    have o0' := congrArg BitVec.toNat o0
    have o1' := congrArg BitVec.toNat o1
    simp only [BitVec.toNat_xor, hlt u hup] at o0' o1'
    intro i; cases i <;> simp [o0', o1', e0, e1, e2]
  · have o0 : (l[k] ID0).2.a ^^^ (l[k] ID0).2.b ^^^ (l[k] ID2).2.b = BitVec.ofNat w u := by
      rw [hz.b0, hz.b2, xor_open0]; exact hz.2
    have o0' := congrArg BitVec.toNat o0
    simp only [BitVec.toNat_xor, hlt u hup] at o0'
    simp only [List.getElem_map, three, e1, e2, BitVec.toNat_xor, o0', hu]
    ring

omit [Sample R (BitVec w)] [UintCodec M w] [Codec M (List (ZMod p))] in
theorem spec_sendRecvMany {α : Type} [Codec M (List α)] {x : PartyID → List α} {β : Type}
    {k : PartyID → List α → Rep3M R M β} {Q : (PartyID → β) → (PartyID → Rep3State R) → Prop}
    (h : Spec (M := M) (fun i => k i (x i.prev)) st Q) :
    Spec (M := M) (fun i => sendNextMany (x i) >>= fun _ => recvPrevMany >>= k i) st Q := by
  have e : (fun i => sendNextMany (x i) >>= fun _ => recvPrevMany >>= k i) =
      fun i => (sendNextMany (x i) >>= fun _ => recvPrevMany) >>= k i := by
    funext i; rw [bind_assoc]
  rw [e]
  refine Spec.bind (Q₁ := fun r s => (r = fun i => x i.prev) ∧ s = st) ?_ ?_
  · refine Spec3 ?_
    simp [sendNextMany, recvPrevMany, sendMany, recvMany, MPC.recv_apply]
    exact ⟨three_prev _, three_eta _⟩
  · rintro v s ⟨rfl, rfl⟩
    exact h

theorem spec_b2aMany [NeZero p] {x : PartyID → List (Share (BitVec w))} {vs : List (BitVec w)}
    (hw : modBits p + 2 ≤ w) (hx : IsBShares x vs) (hv : ∀ v ∈ vs, v.toNat < p) (hst : Corr ty st) :
    Spec (M := M) (fun i => b2aMany (p := p) (x i)) st (fun r st' =>
      IsShares r (vs.map fun v => (v.toNat : ZMod p)) ∧ Corr ty st') := by
  refine Spec.bind (spec_maskBitsMany vs.length (modBits p) (Cols.length hx) hst) ?_
  rintro m st' ⟨⟨r, hr, rfl⟩, hst'⟩
  refine Spec.bind (spec_stateId hst') ?_
  rintro _ _ ⟨rfl, rfl⟩
  have hc : Cols (fun (m : PartyID → BitVec w) (r : PartyID → BitVec w) =>
      m = fun i => r i ^^^ r i.prev) (fun i => r.map fun m => m i ^^^ m i.prev) r :=
    ⟨r.map fun m i => m i ^^^ m i.prev, by simp [Function.comp_def], by
      rw [List.forall₂_map_left_iff, List.forall₂_same]; intro x _; rfl⟩
  refine Spec.bind (Spec.mapCols (f := fun i r => b2aKeys (p := p) i r)
    (Q := fun (res : PartyID → BitVec w × Share (ZMod p)) (r : PartyID → BitVec w) =>
      ∃ c2 c3 : ZMod p, res = three (r ID0 ^^^ r ID2, ⟨0, -c3⟩) (r ID1 ^^^ r ID0, ⟨-c2, 0⟩)
        (Uint.ofField w (c2 + c3) ^^^ (r ID2 ^^^ r ID1), ⟨-c3, -c2⟩)) (g := id) hc ?_ hst') ?_
  · rintro m r st rfl hst
    exact spec_b2aKeys hst
  rintro yr st'' ⟨⟨l, rfl, hl⟩, hst''⟩
  rw [List.map_id] at hl
  have hlr := hl.length_eq
  refine spec_sendRecvMany (M := M) (x := fun i => (l.map (· i)).map Prod.fst) ?_
  obtain ⟨c, hcl⟩ : ∃ c : List (ZMod p × ZMod p), List.Forall₂ (fun (res : PartyID → BitVec w × Share (ZMod p))
      (q : (PartyID → BitVec w) × (ZMod p × ZMod p)) =>
        res = three (q.1 ID0 ^^^ q.1 ID2, ⟨0, -q.2.2⟩) (q.1 ID1 ^^^ q.1 ID0, ⟨-q.2.1, 0⟩)
        (Uint.ofField w (q.2.1 + q.2.2) ^^^ (q.1 ID2 ^^^ q.1 ID1), ⟨-q.2.2, -q.2.1⟩)) l (r.zip c) ∧
        c.length = l.length := by
    clear hlr hc hr
    induction hl with
    | nil => exact ⟨[], .nil, rfl⟩
    | cons h _ ih =>
      obtain ⟨c2, c3, h⟩ := h
      obtain ⟨c, hc, hlen⟩ := ih
      exact ⟨(c2, c3) :: c, .cons h hc, by simp [hlen]⟩
  obtain ⟨hcl, hclen⟩ := hcl
  have hget : ∀ k (h : k < l.length), l[k] = three (r[k] ID0 ^^^ r[k] ID2, ⟨0, -c[k].2⟩)
      (r[k] ID1 ^^^ r[k] ID0, ⟨-c[k].1, 0⟩)
      (Uint.ofField w (c[k].1 + c[k].2) ^^^ (r[k] ID2 ^^^ r[k] ID1), ⟨-c[k].2, -c[k].1⟩) := by
    intro k h
    have := (List.forall₂_iff_get.1 hcl).2 k h (by simp; omega)
    simpa using this
  have hy : IsBShares (fun i => List.zipWith Share.mk ((l.map (· i)).map Prod.fst)
      ((l.map (· i.prev)).map Prod.fst))
      (((vs.map BitVec.toNat).zip (c.map fun q => (q.1 + q.2).val)).map fun v => BitVec.ofNat w v.2) := by
    refine Cols.of_get l.length (by intro i; simp) (by simp; omega) ?_
    intro k hk
    simp only [List.getElem_zipWith, List.getElem_map, List.getElem_zip]
    refine isBShare_mk (x := fun i => (l[k] i).1) ?_
    rw [hget k hk]
    exact xor_own2 _ _ _ _
  have hx' : IsBShares x
      (((vs.map BitVec.toNat).zip (c.map fun q => (q.1 + q.2).val)).map fun v => BitVec.ofNat w v.1) := by
    convert hx using 1
    apply List.ext_getElem
    · simp; omega
    · intro k h1 h2; simp
  refine Spec.bind (Bin.spec_lowDepthBinaryAddModPMany (M := M) p (modBits p) modBits_pos (by omega)
    hx' hy (by
      intro q hq
      have hq' := List.of_mem_zip hq
      obtain ⟨v, hm, e⟩ := List.mem_map.1 hq'.1
      obtain ⟨c, -, e'⟩ := List.mem_map.1 hq'.2
      rw [← e, ← e']
      exact ⟨hv v hm, ZMod.val_lt _⟩) (NeZero.pos p) lt_two_pow_modBits hst'') ?_
  rintro z st4 ⟨⟨zs, rfl, hzs⟩, hst4⟩
  have hzl := hzs.length_eq
  simp only [List.length_map, List.length_zip] at hzl
  have e1 : ∀ i : PartyID, zs.map (· i) = (List.zipWith (fun a b (i : PartyID) => (a i, b i)) l zs).map
      fun t => (t i).2 := by
    intro i
    apply List.ext_getElem
    · simp; omega
    · intro k h1 h2; simp
  have e2 : ∀ i : PartyID, (l.map (· i)).map Prod.snd =
      (List.zipWith (fun a b (i : PartyID) => (a i, b i)) l zs).map fun t => (t i).1.2 := by
    intro i
    apply List.ext_getElem
    · simp; omega
    · intro k h1 h2; simp
  have key := spec_b2aOpenMany (M := M) (st := st4) (by omega : modBits p ≤ w)
    (l := List.zipWith (fun a b (i : PartyID) => (a i, b i)) l zs)
    (vs := vs.map fun v => (v.toNat : ZMod p)) (by
      rw [List.forall₂_iff_get]
      refine ⟨by simp; omega, ?_⟩
      intro k h1 h2
      simp only [List.length_zipWith] at h1
      have hz := (List.forall₂_iff_get.1 hzs).2 k (by omega) (by simp; omega)
      simp only [List.get_eq_getElem, List.getElem_map, List.getElem_zip, List.getElem_zipWith] at hz ⊢
      refine ⟨c[k].1, c[k].2, _, ?_, Nat.mod_lt _ (NeZero.pos p), hz, ?_, ?_, ?_⟩
      · simp [add_assoc]
      · rw [hget k (by omega)]; rfl
      · rw [hget k (by omega)]; rfl
      · rw [hget k (by omega)]; rfl)
  simp only [e1, e2]
  refine key.mono ?_
  rintro r st5 ⟨h, rfl⟩
  exact ⟨h, hst4⟩

end Keys

end Verif.Rep3
