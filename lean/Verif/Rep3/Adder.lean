import Verif.Rep3.Detail
import Verif.Rep3.BinaryLemmas

/-!
# The Kogge-Stone adder on plain values

`ksPlain` is what the adder of `Detail.lean` does to the shared values; `ks_add` says that this is
addition.
-/

namespace Verif.Rep3.Bin

variable {w : Nat}

/-- One round on plain values. -/
def ksRound (bitlen : Nat) (pg : BitVec w × BitVec w) (i : Nat) : BitVec w × BitVec w :=
  (((pg.1 >>> 2 ^ i) &&& (pg.1 &&& Uint.mask w (bitlen - 2 ^ i))) <<< 2 ^ i,
    pg.2 ^^^ ((pg.2 &&& Uint.mask w (bitlen - 2 ^ i)) &&& (pg.1 >>> 2 ^ i)) <<< 2 ^ i)

/-- The whole adder on plain values. -/
def ksPlain (p g : BitVec w) (bitlen : Nat) : BitVec w :=
  (((List.range (ceilLog2 bitlen)).foldl (ksRound bitlen) (p, g)).2 <<< 1) ^^^ p

/-- Carry generated within the window of `n` positions that ends at position `j`. -/
def gen (p g : Nat → Bool) : Nat → Nat → Bool
  | 0, _ => false
  | _ + 1, 0 => g 0
  | n + 1, j + 1 => Bool.xor (g (j + 1)) (p (j + 1) && gen p g n j)

/-- All `n` positions of the window that ends at `j` exist and propagate. -/
def prop (p : Nat → Bool) : Nat → Nat → Bool
  | 0, _ => true
  | 1, 0 => p 0
  | _ + 2, 0 => false
  | n + 1, j + 1 => p (j + 1) && prop p n j

theorem gen_one (p g : Nat → Bool) (j : Nat) : gen p g 1 j = g j := by
  cases j <;> simp [gen]

theorem prop_one (p : Nat → Bool) (j : Nat) : prop p 1 j = p j := by
  cases j <;> simp [prop]

theorem gen_add (p g : Nat → Bool) (m n j : Nat) (h : m ≤ j) :
    gen p g (m + n) j = Bool.xor (gen p g m j) (prop p m j && gen p g n (j - m)) := by
  induction m generalizing j with
  | zero => simp [gen, prop]
  | succ m ih =>
    obtain ⟨j, rfl⟩ : ∃ k, j = k + 1 := ⟨j - 1, by omega⟩
    rw [show m + 1 + n = (m + n) + 1 by omega]
    have e : prop p (m + 1) (j + 1) = (p (j + 1) && prop p m j) := by
      cases m <;> simp [prop]
    rw [e, gen, gen, ih j (by omega), show j + 1 - (m + 1) = j - m by omega]
    cases g (j + 1) <;> cases p (j + 1) <;> cases gen p g m j <;> cases prop p m j <;>
      cases gen p g n (j - m) <;> rfl

theorem gen_sat (p g : Nat → Bool) (m n j : Nat) (h : j < m) :
    gen p g (m + n) j = gen p g m j := by
  induction m generalizing j with
  | zero => omega
  | succ m ih =>
    rw [show m + 1 + n = (m + n) + 1 by omega]
    cases j with
    | zero => simp [gen]
    | succ j => rw [gen, gen, ih j (by omega)]

theorem prop_add (p : Nat → Bool) (m n j : Nat) (h : m ≤ j) :
    prop p (m + n) j = (prop p m j && prop p n (j - m)) := by
  induction m generalizing j with
  | zero => simp [prop]
  | succ m ih =>
    obtain ⟨j, rfl⟩ : ∃ k, j = k + 1 := ⟨j - 1, by omega⟩
    rw [show m + 1 + n = (m + n) + 1 by omega]
    have e : ∀ m, prop p (m + 1) (j + 1) = (p (j + 1) && prop p m j) := by
      intro m; cases m <;> simp [prop]
    rw [e, e, ih j (by omega), show j + 1 - (m + 1) = j - m by omega, Bool.and_assoc]

theorem prop_false (p : Nat → Bool) (n j : Nat) (h : j + 1 < n) : prop p n j = false := by
  induction n generalizing j with
  | zero => omega
  | succ n ih =>
    cases j with
    | zero =>
      cases n with
      | zero => omega
      | succ n => simp [prop]
    | succ j =>
      have e : prop p (n + 1) (j + 1) = (p (j + 1) && prop p n j) := by
        cases n <;> simp [prop]
      rw [e, ih j (by omega), Bool.and_false]

theorem ks_invariant (bitlen : Nat) (p g : BitVec w) (d : Nat) :
    let r := (List.range d).foldl (ksRound bitlen) (p, g)
    ∀ j, j < w →
      (j < bitlen → r.1.getLsbD j = prop p.getLsbD (2 ^ d) j ∧
        r.2.getLsbD j = gen p.getLsbD g.getLsbD (2 ^ d) j) ∧
      (bitlen ≤ j → r.2.getLsbD j = g.getLsbD j) := by
  induction d with
  | zero =>
    intro r j hj
    refine ⟨fun _ => ?_, fun _ => rfl⟩
    rw [Nat.pow_zero, prop_one, gen_one]
    exact ⟨rfl, rfl⟩
  | succ d ih =>
    simp only [List.range_succ, List.foldl_append, List.foldl_cons, List.foldl_nil]
    generalize hr : (List.range d).foldl (ksRound bitlen) (p, g) = r at ih ⊢
    intro j hj
    have e2 : 2 ^ (d + 1) = 2 ^ d + 2 ^ d := by rw [pow_succ]; omega
    have hpos : 0 < 2 ^ d := Nat.two_pow_pos d
    rw [e2]
    simp only [ksRound, BitVec.getLsbD_xor, BitVec.getLsbD_shiftLeft, BitVec.getLsbD_and,
      BitVec.getLsbD_ushiftRight, Uint.getLsbD_mask]
    constructor
    · intro hb
      by_cases hs : j < 2 ^ d
      · simp only [hs, decide_true, Bool.not_true, Bool.and_false, Bool.false_and, Bool.xor_false]
        refine ⟨?_, ?_⟩
        · rw [prop_false _ _ _ (by omega)]
        · rw [((ih j hj).1 hb).2, gen_sat _ _ _ _ _ hs]
      · have h1 : j - 2 ^ d < w := by omega
        have h2 : j - 2 ^ d < bitlen - 2 ^ d := by omega
        have h3 : 2 ^ d + (j - 2 ^ d) = j := by omega
        simp only [hs, hj, h1, h2, h3, decide_true, decide_false, Bool.not_false, Bool.and_true,
          Bool.true_and]
        rw [((ih j hj).1 hb).1, ((ih j hj).1 hb).2, ((ih (j - 2 ^ d) h1).1 (by omega)).1,
          ((ih (j - 2 ^ d) h1).1 (by omega)).2, gen_add _ _ _ _ _ (by omega), prop_add _ _ _ _ (by omega)]
        refine ⟨rfl, ?_⟩
        rw [Bool.and_comm (gen _ _ _ (j - 2 ^ d))]
    · intro hb
      have h2 : ¬ j - 2 ^ d < bitlen - 2 ^ d := by omega
      simp only [h2, decide_false, Bool.and_false, Bool.false_and, Bool.xor_false]
      exact (ih j hj).2 hb

theorem le_two_pow_halvings (x : Nat) : x < 2 ^ halvings x := by
  induction x using Nat.strongRecOn with
  | _ x ih =>
    rw [halvings]
    split
    · omega
    · have := ih (x / 2) (by omega)
      rw [pow_succ]
      omega

theorem le_two_pow_ceilLog2 (x : Nat) : x ≤ 2 ^ ceilLog2 x := by
  have := le_two_pow_halvings (x - 1)
  unfold ceilLog2
  omega

/-- The carry out of position `j`. -/
def carryOut (p g : Nat → Bool) : Nat → Bool
  | 0 => g 0
  | j + 1 => Bool.xor (g (j + 1)) (p (j + 1) && carryOut p g j)

theorem gen_full (p g : Nat → Bool) (n j : Nat) (h : j < n) : gen p g n j = carryOut p g j := by
  induction n generalizing j with
  | zero => omega
  | succ n ih =>
    cases j with
    | zero => rfl
    | succ j => rw [gen, carryOut, ih j (by omega)]

theorem getLsbD_ksPlain (p g : BitVec w) (bitlen j : Nat) (hj : j < w) :
    (ksPlain p g bitlen).getLsbD j = Bool.xor (p.getLsbD j)
      (match j with
        | 0 => false
        | k + 1 => if k < bitlen then carryOut p.getLsbD g.getLsbD k else g.getLsbD k) := by
  unfold ksPlain
  have inv := ks_invariant bitlen p g (ceilLog2 bitlen)
  simp only at inv
  generalize (List.range (ceilLog2 bitlen)).foldl (ksRound bitlen) (p, g) = r at inv ⊢
  rw [BitVec.getLsbD_xor, BitVec.getLsbD_shiftLeft, Bool.xor_comm]
  congr 1
  cases j with
  | zero => simp
  | succ k =>
    have hk : k < w := by omega
    simp only [hj, decide_true, Nat.add_sub_cancel, Bool.true_and]
    have : decide (k + 1 < 1) = false := by simp
    rw [this, Bool.not_false, Bool.true_and]
    split
    · rename_i hb
      rw [((inv k hk).1 hb).2]
      exact gen_full _ _ _ _ (lt_of_lt_of_le hb (le_two_pow_ceilLog2 bitlen))
    · rename_i hb
      exact (inv k hk).2 (by omega)

theorem carryOut_eq (x y : BitVec w) (c : Bool) (p g : Nat → Bool)
    (hp : ∀ j, p j = Bool.xor (x.getLsbD j) (y.getLsbD j))
    (hg : ∀ j, g j = Bool.xor (x.getLsbD j && y.getLsbD j) (decide (j = 0) && (c && p 0))) (j : Nat) :
    carryOut p g j = BitVec.carry (j + 1) x y c := by
  induction j with
  | zero =>
    rw [BitVec.carry_succ, BitVec.carry_zero, carryOut, hg, hp]
    cases x.getLsbD 0 <;> cases y.getLsbD 0 <;> cases c <;> rfl
  | succ j ih =>
    rw [BitVec.carry_succ, carryOut, ih, hg, hp (j + 1)]
    generalize BitVec.carry (j + 1) x y c = d
    cases x.getLsbD (j + 1) <;> cases y.getLsbD (j + 1) <;> cases c <;> cases d <;> simp [Bool.atLeastTwo]

/-- Core of the adder's correctness. -/
theorem ks_core (x y : BitVec w) (c : Bool) (bitlen : Nat)
    (hx : ∀ j, bitlen ≤ j → x.getLsbD j = false) (hy : ∀ j, bitlen ≤ j → y.getLsbD j = false)
    (p g : BitVec w) (hp : p = x ^^^ y)
    (hg : ∀ j, g.getLsbD j = Bool.xor (x.getLsbD j && y.getLsbD j)
      (decide (j = 0) && (c && p.getLsbD 0))) (hb : 0 < bitlen) (j : Nat) (hj : j < w) :
    (ksPlain p g bitlen).getLsbD j = if j = 0 then Bool.xor (x.getLsbD 0) (y.getLsbD 0)
      else (x + y + BitVec.setWidth w (BitVec.ofBool c)).getLsbD j := by
  have hp' : ∀ j, p.getLsbD j = Bool.xor (x.getLsbD j) (y.getLsbD j) := by
    intro j; rw [hp, BitVec.getLsbD_xor]
  rw [getLsbD_ksPlain _ _ _ _ hj]
  cases j with
  | zero => simp [hp']
  | succ k =>
    rw [if_neg (by omega), BitVec.getLsbD_add_add_bool hj, hp']
    simp only
    split
    · rw [carryOut_eq x y c _ _ hp' hg]
      cases x.getLsbD (k+1) <;> cases y.getLsbD (k+1) <;> simp
    · rename_i h
      rw [hg, hx k (by omega), hy k (by omega), hx (k+1) (by omega), hy (k+1) (by omega),
        BitVec.carry_succ, hx k (by omega), hy k (by omega)]
      have : k ≠ 0 := by omega
      simp [this, Bool.atLeastTwo]

theorem getLsbD_of_lt {x : BitVec w} {n : Nat} (h : x.toNat < 2 ^ n) (j : Nat) (hj : n ≤ j) :
    x.getLsbD j = false := by
  rw [BitVec.getLsbD]
  exact Nat.testBit_lt_two_pow (lt_of_lt_of_le h (Nat.pow_le_pow_right (by decide) hj))

/-- The adder adds. -/
theorem ks_add (x y : BitVec w) (bitlen : Nat) (hb : 0 < bitlen) (hx : x.toNat < 2 ^ bitlen)
    (hy : y.toNat < 2 ^ bitlen) : ksPlain (x ^^^ y) (x &&& y) bitlen = x + y := by
  apply BitVec.eq_of_getLsbD_eq
  intro j hj
  rw [ks_core x y false bitlen (getLsbD_of_lt hx) (getLsbD_of_lt hy) (x ^^^ y) (x &&& y) rfl
    (by intro j; simp) hb j hj]
  have e : BitVec.setWidth w (BitVec.ofBool false) = 0#w := by simp
  rw [e, BitVec.add_zero]
  split
  · rename_i h
    subst h
    rw [BitVec.getLsbD_add hj]
    simp
  · rfl

/-- The adder with carry-in one, as used by the subtractors. -/
theorem ks_add_one (x y : BitVec w) (bitlen : Nat) (hb : 0 < bitlen) (hx : x.toNat < 2 ^ bitlen)
    (hy : y.toNat < 2 ^ bitlen) :
    ksPlain (x ^^^ y) ((x &&& y) ^^^ ((x ^^^ y) &&& 1#w)) bitlen ^^^ 1#w = x + y + 1#w := by
  apply BitVec.eq_of_getLsbD_eq
  intro j hj
  have h1 : ∀ k, (1#w).getLsbD k = (decide (0 < w) && decide (k = 0)) := by
    intro k; rw [BitVec.getLsbD_one]
  rw [BitVec.getLsbD_xor, ks_core x y true bitlen (getLsbD_of_lt hx) (getLsbD_of_lt hy) (x ^^^ y)
    ((x &&& y) ^^^ ((x ^^^ y) &&& 1#w)) rfl ?_ hb j hj]
  · have e : BitVec.setWidth w (BitVec.ofBool true) = 1#w := by
      apply BitVec.eq_of_getLsbD_eq
      intro k hk
      rw [h1, BitVec.getLsbD_setWidth]
      have : 0 < w := by omega
      cases k <;> simp [BitVec.ofBool, this, hk]
    rw [e, h1]
    have hw : 0 < w := by omega
    split
    · rename_i h
      subst h
      rw [← e, BitVec.getLsbD_add_add_bool hj]
      simp [hw, BitVec.carry_zero]
    · rename_i h
      simp [h]
  · intro k
    simp only [BitVec.getLsbD_xor, BitVec.getLsbD_and, h1]
    by_cases hk : k = 0
    · subst hk
      by_cases hw : 0 < w
      · simp [hw]
      · omega
    · simp [hk]

end Verif.Rep3.Bin
