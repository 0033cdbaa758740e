import Verif.Rep3.DetailLemmas
import Verif.Props.Demo

/-!
# Properties C23, C29, C30: bitwise operations and adders on XOR shares

`IsBShare s v`: the three parties hold a replicated XOR sharing of the `w`-bit word `v`.
`Ensures` and `Corr` are explained in `Props/Arith.lean`.
-/

namespace Verif.Props

open PartyID Rep3 Demo

variable {R M : Type} {w : Nat} {t : A2BType} {st : PartyID → Rep3State R}

/-! ## C29 -/

section Local

variable {a b : PartyID → Share (BitVec w)} {x y : BitVec w}

/-- C29: operations without communication. -/
theorem C29_local (ha : IsBShare a x) (hb : IsBShare b y) (m : BitVec w) :
    IsBShare (fun i => Bin.xor (a i) (b i)) (x ^^^ y) ∧
    IsBShare (fun i => Bin.xorPublic (a i) m i) (x ^^^ m) ∧
    IsBShare (fun i => Bin.andWithPublic (a i) m) (x &&& m) ∧
    IsBShare (fun i => Bin.orPublic (a i) m i) (x ||| m) ∧
    IsBShare (fun i => Bin.promote i m) m :=
  ⟨ha.bxor hb, ha.xorPublic m, ha.andMask m, Bin.isBShare_orPublic ha m, .promote m⟩

example : IsBShare (fun i => Bin.orPublic (six8 i) 1#8 i) 7#8 :=
  (C29_local isBShare_six8 isBShare_three8 1#8).2.2.2.1

/-- C29: XOR with a public vector, position by position. -/
theorem C29_xor_public_vec {a : PartyID → List (Share (BitVec w))} {x : List (BitVec w)}
    (ha : IsBShares a x) (m : List (BitVec w)) :
    IsBShares (fun i => Bin.xorPublicVec (a i) m i) (List.zipWith (· ^^^ ·) x m) := by
  have hm : Cols (fun (x : PartyID → BitVec w) (v : BitVec w) => x = fun _ => v) (fun _ => m) m :=
    Cols.of_get m.length (fun _ => rfl) rfl (fun _ _ => rfl)
  refine Cols.zipWith (f := fun i s p => Bin.xorPublic s p i) ha hm ?_
  rintro x v _ u h rfl
  exact h.xorPublic u

example : IsBShares (fun i => Bin.xorPublicVec [six8 i, three8 i] [1#8, 2#8] i) [7#8, 1#8] :=
  C29_xor_public_vec isBShares_63 [1#8, 2#8]

/-- C29: shifts by a public amount given as a field element. The right shift panics exactly if the
amount does not fit a machine word, the left shift exactly if the amount is not below the bit size of
the modulus (a modulus of less than `2^64` bits). -/
theorem C29_shifts {p : Nat} (hp : modBits p ≤ 2 ^ 64) (ha : IsBShare a x) (c : ZMod p) :
    (c.val < 2 ^ 64 → ∃ r : PartyID → Share (BitVec w), (∀ i, Bin.shiftRPublic (a i) c = some (r i)) ∧
      IsBShare r (x >>> c.val)) ∧
    (2 ^ 64 ≤ c.val → ∀ i, Bin.shiftRPublic (a i) c = none) ∧
    (c.val < modBits p → ∃ r : PartyID → Share (BitVec w),
      (∀ i, Bin.shiftLPublic (a i) c = some (r i)) ∧ IsBShare r (x <<< c.val)) ∧
    (modBits p ≤ c.val → ∀ i, Bin.shiftLPublic (a i) c = none) := by
  refine ⟨fun h => ⟨_, fun i => if_pos h, ha.shr _⟩, fun h i => if_neg (by omega),
    fun h => ⟨_, fun i => ?_, ha.shl _⟩, fun h i => ?_⟩
  · simp only [Bin.shiftLPublic]
    rw [if_pos (by omega), if_pos h]
  · simp only [Bin.shiftLPublic]
    split
    · rw [if_neg (by omega)]
    · rfl

example : ∃ r : PartyID → Share (BitVec 8), (∀ i, Bin.shiftLPublic (six8 i) (2 : F7) = some (r i)) ∧
    IsBShare r 24#8 := (C29_shifts (by decide) isBShare_six8 (2 : F7)).2.2.1 (by decide)

end Local

variable [Sample R (BitVec w)] [UintCodec M w]

/-- C29 -/
theorem C29_and {a b : PartyID → Share (BitVec w)} {x y : BitVec w} (ha : IsBShare a x)
    (hb : IsBShare b y) (hst : Corr t st) :
    Ensures (M := M) (fun i => Bin.and (a i) (b i)) st
      (fun r st' => IsBShare r (x &&& y) ∧ Corr t st') :=
  (Bin.spec_and ha hb hst).ensures

example : Ensures (M := Msg) (fun i => Bin.and (six8 i) (three8 i)) states
    (fun r st' => IsBShare r 2#8 ∧ Corr .direct st') :=
  C29_and isBShare_six8 isBShare_three8 corr_states

/-- C29 -/
theorem C29_and_vec {a b : PartyID → List (Share (BitVec w))} {x y : List (BitVec w)}
    (ha : IsBShares a x) (hb : IsBShares b y) (hst : Corr t st) :
    Ensures (M := M) (fun i => Bin.andVec (a i) (b i)) st
      (fun r st' => IsBShares r (List.zipWith (· &&& ·) x y) ∧ Corr t st') :=
  (Bin.spec_andVec ha hb hst).ensures

example : Ensures (M := Msg) (fun i => Bin.andVec [six8 i, three8 i] [three8 i, six8 i]) states
    (fun r st' => IsBShares r [2#8, 2#8] ∧ Corr .direct st') :=
  C29_and_vec isBShares_63 isBShares_36 corr_states

/-- C29 -/
theorem C29_or {a b : PartyID → Share (BitVec w)} {x y : BitVec w} (ha : IsBShare a x)
    (hb : IsBShare b y) (hst : Corr t st) :
    Ensures (M := M) (fun i => Bin.or (a i) (b i)) st
      (fun r st' => IsBShare r (x ||| y) ∧ Corr t st') :=
  (Bin.spec_or ha hb hst).ensures

example : Ensures (M := Msg) (fun i => Bin.or (six8 i) (three8 i)) states
    (fun r st' => IsBShare r 7#8 ∧ Corr .direct st') :=
  C29_or isBShare_six8 isBShare_three8 corr_states

/-- C29: opening gives the same word to all three parties. -/
theorem C29_open {a : PartyID → Share (BitVec w)} {x : BitVec w} (ha : IsBShare a x) :
    Ensures (M := M) (fun i => Bin.openShare (a i)) st
      (fun r st' => (∀ i, r i = x) ∧ st' = st) :=
  ((Bin.spec_open ha).mono fun r st' h => ⟨fun i => by rw [h.1], h.2⟩).ensures

example : Ensures (M := Msg) (fun i => Bin.openShare (six8 i)) states
    (fun r st' => (∀ i, r i = 6#8) ∧ st' = states) := C29_open isBShare_six8

/-- C29: bitwise selection: every bit of the result is the bit of the first operand where the
condition has a one, and of the second where it has a zero. -/
theorem C29_cmux {c a b : PartyID → Share (BitVec w)} {z x y : BitVec w} (hc : IsBShare c z)
    (ha : IsBShare a x) (hb : IsBShare b y) (hst : Corr t st) :
    Ensures (M := M) (fun i => Bin.cmux (c i) (a i) (b i)) st (fun r st' =>
      (∃ v, IsBShare r v ∧ ∀ k < w, v.getLsbD k = if z.getLsbD k then x.getLsbD k else y.getLsbD k) ∧
        Corr t st') := by
  refine ((Bin.spec_cmux hc ha hb hst).mono ?_).ensures
  rintro r st' ⟨hr, hst'⟩
  refine ⟨⟨_, hr, fun k hk => ?_⟩, hst'⟩
  simp only [Bin.sel, BitVec.getLsbD_or, BitVec.getLsbD_and, BitVec.getLsbD_not, hk, decide_true]
  cases z.getLsbD k <;> simp

example : Ensures (M := Msg) (fun i => Bin.cmux (six8 i) (three8 i) (six8 i)) states (fun r st' =>
    (∃ v, IsBShare r v ∧ ∀ k < 8, v.getLsbD k = if (6#8).getLsbD k then (3#8).getLsbD k else (6#8).getLsbD k) ∧
      Corr .direct st') := C29_cmux isBShare_six8 isBShare_three8 isBShare_six8 corr_states

/-- C29: the vector form. -/
theorem C29_cmux_many {c a b : PartyID → List (Share (BitVec w))} {z x y : List (BitVec w)}
    (hc : IsBShares c z) (ha : IsBShares a x) (hb : IsBShares b y) (h1 : z.length = x.length)
    (h2 : z.length = y.length) (hst : Corr t st) :
    Ensures (M := M) (fun i => Bin.cmuxMany (c i) (a i) (b i)) st (fun r st' =>
      IsBShares r (List.zipWith (fun z xy => (z &&& xy.1) ||| (~~~z &&& xy.2)) z (x.zip y)) ∧
        Corr t st') :=
  (Bin.spec_cmuxMany hc ha hb h1 h2 hst).ensures

example : Ensures (M := Msg) (fun i => Bin.cmuxMany [six8 i, three8 i] [three8 i, six8 i]
    [six8 i, three8 i]) states (fun r st' => IsBShares r [2#8, 2#8] ∧ Corr .direct st') :=
  C29_cmux_many isBShares_63 isBShares_36 isBShares_63 rfl rfl corr_states

/-- C29: vectors of different length are rejected (by an assertion) before anything is sent. -/
theorem C29_cmux_many_lengths {c a b : List (Share (BitVec w))}
    (h : c.length ≠ a.length ∨ c.length ≠ b.length) (i : PartyID) (s : Rep3State R) :
    ∃ e, (Bin.cmuxMany c a b : Rep3M R M _) i s = .fail (.panic e) := by
  simp only [Bin.cmuxMany]
  by_cases h1 : c.length ≠ a.length
  · rw [if_pos h1]; exact ⟨_, rfl⟩
  · rw [if_neg h1, if_pos (h.resolve_left h1)]; exact ⟨_, rfl⟩

/-! ## C30 -/

/-- C30: the tree computes the disjunction of all its inputs, for every non-empty list: bit `k` of the
result is set iff it is set in some input. -/
theorem C30_or_tree {a : PartyID → List (Share (BitVec w))} {x : List (BitVec w)} (ha : IsBShares a x)
    (h0 : x ≠ []) (hst : Corr t st) :
    Ensures (M := M) (fun i => Bin.orTree (a i)) st (fun r st' =>
      (∃ v, IsBShare r v ∧ ∀ k, v.getLsbD k = true ↔ ∃ y ∈ x, y.getLsbD k = true) ∧ Corr t st') := by
  refine ((Bin.spec_orTree ha h0 hst).mono ?_).ensures
  rintro r st' ⟨hr, hst'⟩
  refine ⟨⟨_, hr, fun k => ?_⟩, hst'⟩
  have key : ∀ (l : List (BitVec w)) (z : BitVec w), (l.foldl (· ||| ·) z).getLsbD k = true ↔
      z.getLsbD k = true ∨ ∃ y ∈ l, y.getLsbD k = true := by
    intro l
    induction l with
    | nil => simp
    | cons y l ih => intro z; rw [List.foldl_cons, ih]; simp [or_assoc]
  rw [key]
  simp

example : Ensures (M := Msg) (fun i => Bin.orTree [six8 i, three8 i, six8 i]) states (fun r st' =>
    (∃ v, IsBShare r v ∧ ∀ k, v.getLsbD k = true ↔ ∃ y ∈ [6#8, 3#8, 6#8], y.getLsbD k = true) ∧
      Corr .direct st') :=
  C30_or_tree ⟨[six8, three8, six8], rfl, .cons isBShare_six8 (.cons isBShare_three8
    (.cons isBShare_six8 .nil))⟩ (by decide) corr_states

/-- C30: an empty list panics (`num` is zero, nothing is left to return). -/
theorem C30_or_tree_empty (i : PartyID) (s : Rep3State R) :
    ∃ e, (Bin.orTree ([] : List (Share (BitVec w))) : Rep3M R M _) i s = .fail (.panic e) :=
  ⟨_, rfl⟩

/-! ## C23 -/

/-- C23: addition modulo `p` of two words below `p`, where `p` has at most `B` bits. -/
theorem C23_add_mod_p {a b : PartyID → Share (BitVec w)} {x y : Nat} (p B : Nat) (hp : p < 2 ^ B)
    (hw : B + 2 ≤ w) (ha : IsBShare a (BitVec.ofNat w x)) (hb : IsBShare b (BitVec.ofNat w y))
    (hx : x < p) (hy : y < p) (hst : Corr t st) :
    Ensures (M := M) (fun i => Bin.lowDepthBinaryAddModP p (a i) (b i) B) st
      (fun r st' => IsBShare r (BitVec.ofNat w ((x + y) % p)) ∧ Corr t st') := by
  have hB : 0 < B := by
    rcases Nat.eq_zero_or_pos B with h | h
    · subst h; simp at hp; omega
    · exact h
  exact (Bin.spec_lowDepthBinaryAddModP p B hB (by omega) ha hb hx hy hp hst).ensures

example : Ensures (M := Msg) (fun i => Bin.lowDepthBinaryAddModP 7 (six8 i) (three8 i) 3) states
    (fun r st' => IsBShare r 2#8 ∧ Corr .direct st') :=
  C23_add_mod_p (x := 6) (y := 3) 7 3 (by decide) (by decide) isBShare_six8 isBShare_three8 (by decide)
    (by decide) corr_states

/-- C23: the vector form. -/
theorem C23_add_mod_p_many {a b : PartyID → List (Share (BitVec w))} {l : List (Nat × Nat)} (p B : Nat)
    (h0 : 0 < p) (hp : p < 2 ^ B) (hw : B + 2 ≤ w) (ha : IsBShares a (l.map fun v => BitVec.ofNat w v.1))
    (hb : IsBShares b (l.map fun v => BitVec.ofNat w v.2)) (hl : ∀ v ∈ l, v.1 < p ∧ v.2 < p)
    (hst : Corr t st) :
    Ensures (M := M) (fun i => Bin.lowDepthBinaryAddModPMany p (a i) (b i) B) st
      (fun r st' => IsBShares r (l.map fun v => BitVec.ofNat w ((v.1 + v.2) % p)) ∧ Corr t st') := by
  have hB : 0 < B := by
    rcases Nat.eq_zero_or_pos B with h | h
    · subst h; simp at hp; omega
    · exact h
  exact (Bin.spec_lowDepthBinaryAddModPMany p B hB (by omega) ha hb hl h0 hp hst).ensures

example : Ensures (M := Msg) (fun i => Bin.lowDepthBinaryAddModPMany 7 [six8 i, three8 i]
    [three8 i, six8 i] 3) states (fun r st' => IsBShares r [2#8, 2#8] ∧ Corr .direct st') :=
  C23_add_mod_p_many (l := [(6, 3), (3, 6)]) 7 3 (by decide) (by decide) (by decide) isBShares_63
    isBShares_36 (by decide) corr_states

/-- C23: plain addition of two `n`-bit words in `w`-bit words. For `n < w` there is no overflow and the
carry is kept; for `n = w` this is addition modulo `2^w`. -/
theorem C23_add {a b : PartyID → Share (BitVec w)} {x y : BitVec w} (n : Nat) (hn : 0 < n)
    (ha : IsBShare a x) (hb : IsBShare b y) (hx : x.toNat < 2 ^ n) (hy : y.toNat < 2 ^ n)
    (hst : Corr t st) :
    Ensures (M := M) (fun i => Bin.lowDepthBinaryAdd (a i) (b i) n) st
      (fun r st' => (∃ v, IsBShare r v ∧ v.toNat = (x.toNat + y.toNat) % 2 ^ w) ∧ Corr t st') :=
  ((Bin.spec_lowDepthBinaryAdd n hn ha hb hx hy hst).mono fun r st' h =>
    ⟨⟨_, h.1, BitVec.toNat_add _ _⟩, h.2⟩).ensures

example : Ensures (M := Msg) (fun i => Bin.lowDepthBinaryAdd (six8 i) (three8 i) 3) states
    (fun r st' => (∃ v, IsBShare r v ∧ v.toNat = 9) ∧ Corr .direct st') :=
  C23_add 3 (by decide) isBShare_six8 isBShare_three8 (by decide) (by decide) corr_states

/-- C23: the vector form. -/
theorem C23_add_many {a b : PartyID → List (Share (BitVec w))} {l : List (BitVec w × BitVec w)} (n : Nat)
    (hn : 0 < n) (ha : IsBShares a (l.map Prod.fst)) (hb : IsBShares b (l.map Prod.snd))
    (hl : ∀ v ∈ l, v.1.toNat < 2 ^ n ∧ v.2.toNat < 2 ^ n) (hst : Corr t st) :
    Ensures (M := M) (fun i => Bin.lowDepthBinaryAddMany (a i) (b i) n) st
      (fun r st' => IsBShares r (l.map fun v => v.1 + v.2) ∧ Corr t st') :=
  (Bin.spec_lowDepthBinaryAddMany n hn ha hb hl hst).ensures

example : Ensures (M := Msg) (fun i => Bin.lowDepthBinaryAddMany [six8 i, three8 i] [three8 i, six8 i] 3)
    states (fun r st' => IsBShares r [9#8, 9#8] ∧ Corr .direct st') :=
  C23_add_many (l := [(6, 3), (3, 6)]) 3 (by decide) isBShares_63 isBShares_36 (by decide) corr_states

/-- Reading off the result of the subtractors. -/
theorem sub_bits {x y : BitVec w} (n : Nat) (hw : n < w) (hx : x.toNat < 2 ^ n) (hy : y.toNat < 2 ^ n) :
    (∀ k < n, (BitVec.ofNat w (x.toNat + 2 ^ n - y.toNat)).getLsbD k = (x - y).getLsbD k) ∧
      (BitVec.ofNat w (x.toNat + 2 ^ n - y.toNat)).getLsbD n = decide (y.toNat ≤ x.toNat) := by
  constructor
  · intro k hk
    have h1 : ∀ m : Nat, (m % 2 ^ w).testBit k = (m % 2 ^ n).testBit k := by
      intro m; simp [hk, show k < w by omega]
    have hd : 2 ^ n ∣ 2 ^ w := pow_dvd_pow 2 (by omega)
    have hlt : 2 ^ n ≤ 2 ^ w := Nat.pow_le_pow_right (by decide) (by omega)
    rw [← BitVec.testBit_toNat, ← BitVec.testBit_toNat, BitVec.toNat_ofNat, BitVec.toNat_sub, h1, h1]
    congr 1
    obtain ⟨c, hc⟩ := hd
    have hc0 : 0 < c := by
      rcases Nat.eq_zero_or_pos c with h | h
      · subst h; simp at hc
      · exact h
    obtain ⟨c, rfl⟩ : ∃ d, c = d + 1 := ⟨c - 1, by omega⟩
    have : 2 ^ w - y.toNat + x.toNat = (x.toNat + 2 ^ n - y.toNat) + 2 ^ n * c := by
      rw [hc, Nat.mul_add, Nat.mul_one]; omega
    rw [this, Nat.add_mul_mod_self_left]
  · have := Bin.sub_msb (w := w) hw hx hy.le
    rwa [BitVec.getLsbD_ushiftRight, Nat.add_zero] at this

/-- C23: subtraction of `n`-bit words: the low `n` bits are those of the difference modulo `2^n`, and bit
`n` is set iff there is no borrow. -/
theorem C23_sub {a b : PartyID → Share (BitVec w)} {x y : BitVec w} (n : Nat) (hn : 0 < n) (hw : n < w)
    (ha : IsBShare a x) (hb : IsBShare b y) (hx : x.toNat < 2 ^ n) (hy : y.toNat < 2 ^ n)
    (hst : Corr t st) :
    Ensures (M := M) (fun i => Bin.lowDepthBinarySub (a i) (b i) n) st
      (fun r st' => (∃ v, IsBShare r v ∧ (∀ k < n, v.getLsbD k = (x - y).getLsbD k) ∧
        v.getLsbD n = decide (y.toNat ≤ x.toNat)) ∧ Corr t st') :=
  ((Bin.spec_lowDepthBinarySub n hn hw ha hb hx hy hst).mono fun r st' h =>
    ⟨⟨_, h.1, sub_bits n hw hx hy⟩, h.2⟩).ensures

example : Ensures (M := Msg) (fun i => Bin.lowDepthBinarySub (three8 i) (six8 i) 3) states
    (fun r st' => (∃ v, IsBShare r v ∧ (∀ k < 3, v.getLsbD k = (3#8 - 6#8).getLsbD k) ∧
        v.getLsbD 3 = false) ∧ Corr .direct st') :=
  C23_sub 3 (by decide) (by decide) isBShare_three8 isBShare_six8 (by decide) (by decide) corr_states

/-- C23: subtraction of a public non-zero `n`-bit word. -/
theorem C23_sub_by_const {a : PartyID → Share (BitVec w)} {x : BitVec w} (c : BitVec w) (n : Nat)
    (hn : 0 < n) (hw : n < w) (ha : IsBShare a x) (hx : x.toNat < 2 ^ n) (h0 : 0 < c.toNat)
    (hc : c.toNat < 2 ^ n) (hst : Corr t st) :
    Ensures (M := M) (fun i => Bin.lowDepthBinarySubByConst n (a i) c) st
      (fun r st' => (∃ v, IsBShare r v ∧ (∀ k < n, v.getLsbD k = (x - c).getLsbD k) ∧
        v.getLsbD n = decide (c.toNat ≤ x.toNat)) ∧ Corr t st') :=
  ((Bin.spec_lowDepthBinarySubByConst c n hn hw ha hx h0 hc hst).mono fun r st' h =>
    ⟨⟨_, h.1, sub_bits n hw hx hc⟩, h.2⟩).ensures

example : Ensures (M := Msg) (fun i => Bin.lowDepthBinarySubByConst 3 (three8 i) 2#8) states
    (fun r st' => (∃ v, IsBShare r v ∧ (∀ k < 3, v.getLsbD k = (3#8 - 2#8).getLsbD k) ∧
        v.getLsbD 3 = true) ∧ Corr .direct st') :=
  C23_sub_by_const 2#8 3 (by decide) (by decide) isBShare_three8 (by decide) (by decide) (by decide)
    corr_states

/-- C23: subtraction from a public `n`-bit word. -/
theorem C23_sub_from_const {a : PartyID → Share (BitVec w)} {x : BitVec w} (c : BitVec w) (n : Nat)
    (hn : 0 < n) (hw : n < w) (ha : IsBShare a x) (hx : x.toNat < 2 ^ n)
    (hc : c.toNat < 2 ^ n) (hst : Corr t st) :
    Ensures (M := M) (fun i => Bin.lowDepthBinarySubFromConst n c (a i)) st
      (fun r st' => (∃ v, IsBShare r v ∧ (∀ k < n, v.getLsbD k = (c - x).getLsbD k) ∧
        v.getLsbD n = decide (x.toNat ≤ c.toNat)) ∧ Corr t st') :=
  ((Bin.spec_lowDepthBinarySubFromConst c n hn hw ha hx hc hst).mono fun r st' h =>
    ⟨⟨_, h.1, sub_bits n hw hc hx⟩, h.2⟩).ensures

example : Ensures (M := Msg) (fun i => Bin.lowDepthBinarySubFromConst 3 2#8 (three8 i)) states
    (fun r st' => (∃ v, IsBShare r v ∧ (∀ k < 3, v.getLsbD k = (2#8 - 3#8).getLsbD k) ∧
        v.getLsbD 3 = false) ∧ Corr .direct st') :=
  C23_sub_from_const 2#8 3 (by decide) (by decide) isBShare_three8 (by decide) (by decide) corr_states

end Verif.Props
