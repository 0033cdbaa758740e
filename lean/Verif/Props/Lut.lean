import Verif.Ring.LutSharedLemmas
import Verif.Spec.Table
import Verif.Props.Ring

/-!
# Properties C45 - C47 and C60: one-hot vectors and oblivious tables

`Ensures` and `Corr` are explained in `Props/Arith.lean`.  Reading a public table uses two networks at once
(`mpc_net::join`): the code runs the two closures as concurrent threads.  The model has an actor for each thread and
`Ensures₂` speaks about every interleaving of all of them; its two states are the state of the caller and the
forked state.  `oneHot`, `TableOp` and `playArray` are in `Spec/Table.lean`.  `w` is the width of the integers that
represent field elements (`BigUint` in the code), `modBits p` the number of bits of the modulus.  Operations that convert
between representations are proved for both settings of the state; with garbled circuits (`.yao`) the modulus must be odd
(`ho`), and where the result is converted back the hash of the code must separate the two labels of a wire (`hH`).
-/

namespace Verif.Props

open PartyID Rep3 Rep3.Lut Demo

variable {R M : Type} {w k p : Nat} {t t₀ : A2BType} {st : PartyID → Rep3State R}
  [∀ w, Sample R (BitVec w)] [∀ w, UintCodec M w] [Yao.YaoRng R] [Yao.YaoNet M]

namespace LutDemo

theorem isShare_two : IsShare (three ⟨3, 5⟩ ⟨1, 3⟩ ⟨5, 1⟩ : PartyID → Share F7) 2 :=
  ⟨by intro i; cases i <;> rfl, by decide⟩

end LutDemo

open LutDemo

/-! ## C45 -/

omit [Yao.YaoRng R] [Yao.YaoNet M] in
/-- C45: the one-hot vector of a shared index, of the index modulo `2^n` if the index has more than `n` bits. -/
theorem C45_ohv (n : Nat) (hn : 0 < n) (hk : n ≤ k) {x : PartyID → Share (BitVec k)} {v : BitVec k}
    (hx : IsBShare x v) (hst : Corr t st) :
    Ensures (M := M) (fun i => Rep3.Ring.ohv n (x i)) st (fun r st' =>
      IsBShares r (oneHot (2 ^ n) (v.toNat % 2 ^ n)) ∧ Corr t st') := by
  have e : ∀ n v, Rep3.Ring.hot n v = oneHot (2 ^ n) v := fun n v => by
    refine List.map_congr_left fun j _ => ?_
    by_cases h : j = v <;> simp [h]
  rw [← e]
  exact (Rep3.Ring.spec_ohv n hn hk hx hst).ensures

omit [Yao.YaoRng R] [Yao.YaoNet M] in
/-- C45: the one-hot vector of a random index: the parties hold shares of some `n`-bit number and of its one-hot vector. -/
theorem C45_rand_ohv (n : Nat) (hn : 0 < n) (hk : n ≤ k) (hst : Corr t st) :
    Ensures (M := M) (fun _ => Rep3.Ring.randOhv k n) st (fun r st' =>
      (∃ v : BitVec k, v.toNat < 2 ^ n ∧ IsBShare (fun i => (r i).1) v ∧
        IsBShares (fun i => (r i).2) (oneHot (2 ^ n) v.toNat)) ∧ Corr t st') := by
  have e : ∀ n v, Rep3.Ring.hot n v = oneHot (2 ^ n) v := fun n v => by
    refine List.map_congr_left fun j _ => ?_
    by_cases h : j = v <;> simp [h]
  refine ((Rep3.Ring.spec_randOhv n hn hk hst).mono ?_).ensures
  rintro r st' ⟨⟨v, hv, -, h1, h2⟩, hst'⟩
  rw [e] at h2
  exact ⟨⟨v, hv, h1, h2⟩, hst'⟩

/-- C45: the one-hot vector of a shared field element for a table of length `n`, as shares of field elements; its length is
the next power of two. -/
theorem C45_ohv_from_index [Fact p.Prime] [Sample R (ZMod p)] [Codec M (List (ZMod p))] {n : Nat} (hn : 2 ≤ n)
    (hn' : n ≤ 2 ^ 32) (hw : modBits p + 2 ≤ w) (ho : t = .yao → p % 2 = 1) {index : PartyID → Share (ZMod p)} {x : ZMod p}
    (hx : IsShare index x) (hr : x.val < n) (hst : Corr t st) :
    Ensures (M := M) (fun i => ohvFromIndex w (index i) n) st (fun r st' =>
      IsShares r (oneHot (2 ^ Nat.clog 2 n) x.val) ∧ Corr t st') := by
  have h := (spec_ohvFromIndex (M := M) hn hn' hw ho hx hst).ensures
  rw [Nat.mod_eq_of_lt (lt_of_lt_of_le hr le_two_pow_clog)] at h
  exact h

example : Ensures (M := Msg) (fun i => Rep3.Ring.ohv 3 (six8 i)) states (fun r st' =>
    IsBShares r [0, 0, 0, 0, 0, 0, 1, 0] ∧ Corr .direct st') :=
  C45_ohv 3 (by decide) (by decide) isBShare_six8 corr_states
example : Ensures (M := Msg) (fun i => ohvFromIndex (p := 7) 5 (three7 i) 5) states (fun r st' =>
    IsShares r [0, 0, 0, 1, 0, 0, 0, 0] ∧ Corr .direct st') :=
  C45_ohv_from_index (w := 5) (n := 5) (by decide) (by decide) (by decide) (fun _ => rfl) isShare_three7 (by decide) corr_states

/-! ## C46 -/

section Field

variable [Fact p.Prime] [Sample R (ZMod p)] [Codec M (List (ZMod p))]

theorem getD_mod {V : Type} (ls : List V) (d : V) {v m : Nat} (hr : v < ls.length) (hm : ls.length ≤ 2 ^ m) :
    ls.getD (v % 2 ^ m) d = ls[v] := by
  rw [Nat.mod_eq_of_lt (lt_of_lt_of_le hr hm), List.getD_eq_getElem?_getD, List.getElem?_eq_getElem hr]
  rfl

theorem length_le_makeEven (n : Nat) : n ≤ 2 ^ makeEven (Nat.clog 2 n) :=
  le_trans le_two_pow_clog (Nat.pow_le_pow_right (by norm_num) (le_makeEven _))

/-- C46: reading a public table through the provider.  Missing from the property: public tables of length two, for which
it is false (`C46_public_length_two_false`). -/
theorem C46_get_public_partial {lut : List (ZMod p)} (hn : 3 ≤ lut.length) (hn' : lut.length ≤ 2 ^ 32)
    (hw : modBits p + 2 ≤ w) (ho : t₀ = .yao → p % 2 = 1)
    (hH : t₀ = .yao → Yao.HashSeparates (Yao.YaoNet.hash M)) {index : PartyID → Share (ZMod p)} {x : ZMod p} (hx : IsShare index x)
    (hr : x.val < lut.length) {st₀ st₁ : PartyID → Rep3State R} (h₀ : Corr t₀ st₀) (h₁ : Corr t st₁) :
    Ensures₂ (getFromPublicLut (M := M) w index lut st₀ st₁) fun r s₀ s₁ =>
      IsShare r lut[x.val] ∧ Corr t₀ s₀ ∧ Corr t s₁ := by
  have h := ensures_getFromPublicLut (M := M) hn hn' hw ho hH hx h₀ h₁
  rw [getD_mod lut 0 hr (length_le_makeEven _)] at h
  exact h

omit [Yao.YaoRng R] [Yao.YaoNet M] in
/-- C46: reading a public table without converting the result back: the parties get a binary sharing of the entry.  The
caller chooses the width `k` of the index type, it must hold the index rounded up to an even number of bits. -/
theorem C46_get_public_no_b2a_partial {lut : List (ZMod p)} (hn : 2 ≤ lut.length) {k₀ : Nat}
    (hkt : makeEven (Nat.clog 2 lut.length) ≤ k₀) (hk₀ : k₀ ≤ 64)
    {index : PartyID → Share (BitVec w)} {v : BitVec w} (hx : IsBShare index v) (hr : v.toNat < lut.length)
    {st₀ st₁ : PartyID → Rep3State R} (h₀ : Corr t st₀) (h₁ : Corr t st₁) :
    Ensures₂ (getFromPublicLutNoB2A (M := M) k₀ index lut st₀ st₁) fun r s₀ s₁ =>
      IsBShare r (BitVec.ofNat w lut[v.toNat].val) ∧ Corr t s₀ ∧ Corr t s₁ := by
  have h := ensures_getFromPublicLutNoB2A (M := M) hn hkt hk₀ hx h₀ h₁
  rw [getD_mod lut 0 hr (length_le_makeEven _)] at h
  exact h

omit [Yao.YaoRng R] [Yao.YaoNet M] in
/-- C46: the linear-scan gadget reads a public table of length at least two. -/
theorem C46_read_public_lut {lut : List (ZMod p)} {k : Nat} (hn : 2 ≤ lut.length) (hk : Nat.clog 2 lut.length ≤ k)
    (hk' : k ≤ 64) {index : PartyID → Share (BitVec k)} {v : BitVec k} (hx : IsBShare index v)
    (hr : v.toNat < lut.length) (hst : Corr t st) :
    Ensures (M := M) (fun i => readPublicLut w lut (index i)) st (fun r st' =>
      IsBShare r (BitVec.ofNat w lut[v.toNat].val) ∧ Corr t st') := by
  have h := (spec_readPublicLut (M := M) (w := w) hn hk hk' hx hst).ensures
  rw [getD_mod lut 0 hr le_two_pow_clog] at h
  exact h

/-- C46: false of the code: reading a public table of length two through the provider panics at every party, in every
execution, for every index (F10). -/
theorem C46_public_length_two_false {lut : List (ZMod p)} (hn : lut.length = 2) (hw : modBits p + 2 ≤ w) (ho : t₀ = .yao → p % 2 = 1)
    {index : PartyID → Share (ZMod p)} {x : ZMod p} (hx : IsShare index x)
    {st₀ st₁ : PartyID → Rep3State R} (h₀ : Corr t₀ st₀) :
    Fails₂ (getFromPublicLut (M := M) w index lut st₀ st₁) fun e => ∃ m, e = .panic m :=
  fails_getFromPublicLut_two hn hw ho hx h₀

/-- C46: false of the code for a single entry: reading a public table of length one panics at every party (F6). -/
theorem C46_public_length_one_false {lut : List (ZMod p)} (hn : lut.length ≤ 1) (hw : modBits p + 2 ≤ w) (ho : t₀ = .yao → p % 2 = 1)
    {index : PartyID → Share (ZMod p)} {x : ZMod p} (hx : IsShare index x)
    {st₀ st₁ : PartyID → Rep3State R} (h₀ : Corr t₀ st₀) :
    Fails₂ (getFromPublicLut (M := M) w index lut st₀ st₁) fun e => ∃ m, e = .panic m :=
  fails_getFromPublicLut_one hn hw ho hx h₀

variable {V : Type} [AddCommGroup V] [Module (ZMod p) V] [Sample R V] [Codec M (List V)]

/-- C46 (and C60 for points): reading a shared table. -/
theorem C46_get_shared {lut : PartyID → List (Share V)} {ls : List V} (hl : IsShares lut ls) (hn : 2 ≤ ls.length)
    (hn' : ls.length ≤ 2 ^ 32) (hw : modBits p + 2 ≤ w) (ho : t = .yao → p % 2 = 1) {index : PartyID → Share (ZMod p)} {x : ZMod p}
    (hx : IsShare index x) (hr : x.val < ls.length) (hst : Corr t st) :
    Ensures (M := M) (fun i => getFromSharedLut w (index i) (lut i)) st (fun r st' =>
      IsShare r ls[x.val] ∧ Corr t st') := by
  have h := (spec_getFromSharedLut (M := M) hl hn hn' hw ho hx hst).ensures
  rw [getD_mod ls 0 hr le_two_pow_clog] at h
  exact h

/-- C46 (and C60 for points): writing to a public or shared table changes exactly the entry at the index; the table is
shared afterwards.  `promote` is any way to turn a public value into shares. -/
theorem C46_write {promote : PartyID → V → Share V} (hp : ∀ v, IsShare (fun i => promote i v) v)
    {lut : PartyID → Table V} {ls : List V}
    (hl : (lut = fun _ => .pub ls) ∨ ∃ l : PartyID → List (Share V), (lut = fun i => .shared (l i)) ∧ IsShares l ls)
    (hn : 2 ≤ ls.length) (hn' : ls.length ≤ 2 ^ 32) (hw : modBits p + 2 ≤ w) (ho : t = .yao → p % 2 = 1)
    {index : PartyID → Share (ZMod p)} {x : ZMod p} (hx : IsShare index x) (hr : x.val < ls.length)
    {value : PartyID → Share V} {val : V} (hv : IsShare value val) (hst : Corr t st) :
    Ensures (M := M) (fun i => writeToLut w promote (index i) (value i) (lut i)) st (fun r st' =>
      (∃ l : PartyID → List (Share V), (r = fun i => .shared (l i)) ∧ IsShares l (ls.set x.val val)) ∧
        Corr t st') := by
  have h := (spec_writeToLut (M := M) hp hl hn hn' hw ho hx hv hst).ensures
  rw [Nat.mod_eq_of_lt (lt_of_lt_of_le hr le_two_pow_clog)] at h
  exact h

omit [Yao.YaoRng R] [Yao.YaoNet M] in
/-- C46: writing with a given one-hot vector, of any length that covers the table. -/
theorem C46_write_from_ohv {lut : PartyID → List (Share V)} {ls : List V} (hl : IsShares lut ls)
    {value : PartyID → Share V} {val : V} (hv : IsShare value val)
    {e : PartyID → List (Share (ZMod p))} {n idx : Nat} (he : IsShares e (oneHot n idx)) (hn : ls.length ≤ n)
    (hst : Corr t st) :
    Ensures (M := M) (fun i => writeLutFromOhv (value i) (lut i) (e i)) st (fun r st' =>
      IsShares r (ls.set idx val) ∧ Corr t st') :=
  (spec_writeLutFromOhv hl hv he hn hst).ensures

/-- The provider's trait says that writes outside the table are ignored.  C46: false of the code: the index is reduced
modulo the length rounded up to a power of two, so for a table whose length is a power of two *every* out-of-range write
overwrites an entry (F12). -/
theorem C46_write_out_of_range_false {promote : PartyID → V → Share V} (hp : ∀ v, IsShare (fun i => promote i v) v)
    {lut : PartyID → Table V} {ls : List V}
    (hl : (lut = fun _ => .pub ls) ∨ ∃ l : PartyID → List (Share V), (lut = fun i => .shared (l i)) ∧ IsShares l ls)
    {m : Nat} (hm : ls.length = 2 ^ m) (hm1 : 1 ≤ m) (hm2 : m ≤ 32) (hw : modBits p + 2 ≤ w) (ho : t = .yao → p % 2 = 1)
    {index : PartyID → Share (ZMod p)} {x : ZMod p} (hx : IsShare index x)
    {value : PartyID → Share V} {val : V} (hv : IsShare value val) (hst : Corr t st) :
    Ensures (M := M) (fun i => writeToLut w promote (index i) (value i) (lut i)) st (fun r st' =>
      (∃ l : PartyID → List (Share V), (r = fun i => .shared (l i)) ∧
        IsShares l (ls.set (x.val % ls.length) val)) ∧ Corr t st') := by
  have hn : 2 ≤ ls.length := by
    rw [hm]; exact le_trans (by norm_num) (Nat.pow_le_pow_right (by norm_num : 0 < 2) hm1)
  have h := (spec_writeToLut (M := M) hp hl hn (by rw [hm]; exact Nat.pow_le_pow_right (by norm_num) hm2) hw ho hx hv hst).ensures
  rw [hm, Nat.clog_pow 2 m (by norm_num), ← hm] at h
  exact h

/-- A client that performs a sequence of reads and writes on a shared table through the provider, and returns what it
has read and the table. -/
def playTable (w : Nat) (promote : PartyID → V → Share V) :
    List (TableOp (Share (ZMod p)) (Share V)) → List (Share V) → Rep3M R M (List (Share V) × List (Share V))
  | [], lut => pure ([], lut)
  | .get i :: ops, lut => do
    let r ← getFromSharedLut w i lut
    let rest ← playTable w promote ops lut
    pure (r :: rest.1, rest.2)
  | .set i v :: ops, lut => do
    match ← writeToLut w promote i v (.shared lut) with
    | .shared lut => playTable w promote ops lut
    | .pub _ => MPC.panicWith "not a shared table"

/-- What the parties hold for an operation: shares of the index and of the value. -/
inductive IsOp : (PartyID → TableOp (Share (ZMod p)) (Share V)) → TableOp Nat V → Prop
  | get {index : PartyID → Share (ZMod p)} {x : ZMod p} (hx : IsShare index x) : IsOp (fun i => .get (index i)) (.get x.val)
  | set {index : PartyID → Share (ZMod p)} {x : ZMod p} (hx : IsShare index x) {value : PartyID → Share V} {v : V}
      (hv : IsShare value v) : IsOp (fun i => .set (index i) (value i)) (.set x.val v)

theorem spec_playTable [Inhabited V] {promote : PartyID → V → Share V} (hp : ∀ v, IsShare (fun i => promote i v) v)
    (hw : modBits p + 2 ≤ w) (ho : t = .yao → p % 2 = 1) {ops : PartyID → List (TableOp (Share (ZMod p)) (Share V))} {vops : List (TableOp Nat V)}
    (hops : Cols IsOp ops vops) {lut : PartyID → List (Share V)} {ls : List V} (hl : IsShares lut ls)
    (hr : ∀ op ∈ vops, InRange ls.length op) (hn : 2 ≤ ls.length) (hn' : ls.length ≤ 2 ^ 32) (hst : Corr t st) :
    Spec (M := M) (fun i => playTable w promote (ops i) (lut i)) st (fun r st' =>
      (IsShares (fun i => (r i).1) (playArray vops ls).1 ∧ IsShares (fun i => (r i).2) (playArray vops ls).2) ∧
        Corr t st') := by
  obtain ⟨l, rfl, h⟩ := hops
  induction h generalizing lut ls st with
  | nil => exact Spec.pure ⟨⟨Cols.nil, hl⟩, hst⟩
  | @cons x v l vs hx _ ih =>
    cases hx with
    | @get index x hx =>
      have hi : x.val < ls.length := hr (.get x.val) (by simp)
      simp only [List.map_cons, playTable, playArray]
      refine Spec.bind (spec_getFromSharedLut hl hn hn' hw ho hx hst) ?_
      rintro r st' ⟨hr', hst'⟩
      rw [getD_mod ls 0 hi le_two_pow_clog] at hr'
      refine Spec.bind (ih hl (fun op hop => hr op (by simp [hop])) hn hn' hst') ?_
      rintro rest st' ⟨⟨h1, h2⟩, hst'⟩
      refine Spec.pure ⟨⟨Cols.cons ?_ h1, h2⟩, hst'⟩
      rw [getElem!_pos ls x.val hi]
      exact hr'
    | @set index x hx value v hv =>
      have hi : x.val < ls.length := hr (.set x.val v) (by simp)
      simp only [List.map_cons, playTable, playArray]
      refine Spec.bind (spec_writeToLut hp (.inr ⟨lut, rfl, hl⟩) hn hn' hw ho hx hv hst) ?_
      rintro _ st' ⟨⟨lut', rfl, hl'⟩, hst'⟩
      rw [Nat.mod_eq_of_lt (lt_of_lt_of_le hi le_two_pow_clog)] at hl'
      exact ih hl' (fun op hop => by rw [List.length_set]; exact hr op (by simp [hop])) (by simpa using hn)
        (by simpa using hn') hst'

/-- C46: histories.  Any sequence of reads and writes at in-range indices on a shared table gives the parties shares of
what the same sequence reads from a plain array, and shares of that array at the end. -/
theorem C46_history [Inhabited V] {promote : PartyID → V → Share V} (hp : ∀ v, IsShare (fun i => promote i v) v)
    (hw : modBits p + 2 ≤ w) (ho : t = .yao → p % 2 = 1) {ops : PartyID → List (TableOp (Share (ZMod p)) (Share V))} {vops : List (TableOp Nat V)}
    (hops : Cols IsOp ops vops) {lut : PartyID → List (Share V)} {ls : List V} (hl : IsShares lut ls)
    (hr : ∀ op ∈ vops, InRange ls.length op) (hn : 2 ≤ ls.length) (hn' : ls.length ≤ 2 ^ 32) (hst : Corr t st) :
    Ensures (M := M) (fun i => playTable w promote (ops i) (lut i)) st (fun r st' =>
      (IsShares (fun i => (r i).1) (playArray vops ls).1 ∧ IsShares (fun i => (r i).2) (playArray vops ls).2) ∧
        Corr t st') :=
  (spec_playTable hp hw ho hops hl hr hn hn' hst).ensures

omit [Fact p.Prime] in
/-- C46: the plain provider, on indices inside the table. -/
theorem C46_plain [NeZero p] {lut : List (ZMod p)} {x v : ZMod p} (hr : x.val < lut.length) (hn : lut.length ≤ 2 ^ 64) :
    plainGet x lut = .ok lut[x.val] ∧ plainWrite x v lut = .ok (lut.set x.val v) := by
  have hx : x.val < 2 ^ 64 := by omega
  unfold plainGet plainWrite fieldToUsize
  rw [if_pos hx]
  simp only [List.getElem?_eq_getElem hr, if_pos hr, and_self]

omit [Fact p.Prime] in
/-- The trait says that writes outside the table are ignored.  C46: false of the plain provider: it fails on every such
write (F8). -/
theorem C46_plain_out_of_range_false [NeZero p] {lut : List (ZMod p)} {x v : ZMod p} (hr : lut.length ≤ x.val) :
    ∃ e, plainWrite x v lut = .error e := by
  unfold plainWrite fieldToUsize
  by_cases hx : x.val < 2 ^ 64
  · rw [if_pos hx]
    simp only [if_neg (not_lt.2 hr)]
    exact ⟨_, rfl⟩
  · rw [if_neg hx]
    exact ⟨_, rfl⟩

/-! ## C47 -/

/-- C47: batched reading of public tables of the same length, at least three.  Missing from the property: tables of
different lengths, for which it is false (`C47_different_sizes_false`), and tables of length two. -/
theorem C47_equal_sizes_partial {luts : List (List (ZMod p))} {n : Nat} (h0 : luts ≠ [])
    (hlen : ∀ lut ∈ luts, lut.length = n) (hn : 3 ≤ n) (hn' : n ≤ 2 ^ 32)
    (hw : modBits p + 2 ≤ w) (ho : t₀ = .yao → p % 2 = 1)
    (hH : t₀ = .yao → Yao.HashSeparates (Yao.YaoNet.hash M)) {index : PartyID → Share (ZMod p)} {x : ZMod p} (hx : IsShare index x) (hr : x.val < n)
    {st₀ st₁ : PartyID → Rep3State R} (h₀ : Corr t₀ st₀) (h₁ : Corr t st₁) :
    Ensures₂ (getFromPublicLuts (M := M) w index luts st₀ st₁) fun r s₀ s₁ =>
      IsShares r (luts.map fun lut => lut.getD x.val 0) ∧ Corr t₀ s₀ ∧ Corr t s₁ := by
  have h := ensures_getFromPublicLuts (M := M) h0 hlen hn hn' hw ho hH hx h₀ h₁
  rw [Nat.mod_eq_of_lt (lt_of_lt_of_le hr (length_le_makeEven _))] at h
  exact h

/-- C47: false of the code: whenever one of the tables is shorter than the longest, the batched lookup panics at every
party, in every execution, for every index - also for an index that is inside all tables (F3). -/
theorem C47_different_sizes_false {luts : List (List (ZMod p))} {lut : List (ZMod p)} (hmem : lut ∈ luts)
    (hshort : ∃ long ∈ luts, lut.length < long.length) (hn : ∃ long ∈ luts, 3 ≤ long.length)
    (hn' : ∀ l ∈ luts, l.length ≤ 2 ^ 32)
    (hw : modBits p + 2 ≤ w) (ho : t₀ = .yao → p % 2 = 1) {index : PartyID → Share (ZMod p)} {x : ZMod p} (hx : IsShare index x)
    {st₀ st₁ : PartyID → Rep3State R} (h₀ : Corr t₀ st₀) (h₁ : Corr t st₁) :
    Fails₂ (getFromPublicLuts (M := M) w index luts st₀ st₁) fun e => ∃ m, e = .panic m := by
  obtain ⟨l1, hl1, h1⟩ := hshort
  obtain ⟨l2, hl2, h2⟩ := hn
  refine fails_getFromPublicLuts hmem (lt_of_lt_of_le h1 (le_maxLen hl1)) (le_trans h2 (le_maxLen hl2)) ?_ hw ho hx h₀ h₁
  refine max?_le_of_forall fun n hn => ?_
  obtain ⟨l, hl, rfl⟩ := List.mem_map.1 hn
  exact hn' l hl

/-! ## C60 -/

/-- C60: reading a public table of points. -/
theorem C60_get_public {ls : List V} (hn : 2 ≤ ls.length) (hn' : ls.length ≤ 2 ^ 32) (hw : modBits p + 2 ≤ w) (ho : t = .yao → p % 2 = 1)
    {index : PartyID → Share (ZMod p)} {x : ZMod p} (hx : IsShare index x) (hr : x.val < ls.length)
    (hst : Corr t st) :
    Ensures (M := M) (fun i => getPointFromPublicLut w (index i) ls) st (fun r st' =>
      IsShare r ls[x.val] ∧ Corr t st') := by
  have h := (spec_getPointFromPublicLut (M := M) hn hn' hw ho hx hst).ensures
  rw [getD_mod ls 0 hr le_two_pow_clog] at h
  exact h

/-- C60: reading a shared table of points, and writing to one, are `C46_get_shared` and `C46_write` with the library's
promotion of points. -/
theorem C60_write [DecidableEq V] (gen : V) {lut : PartyID → Table V} {ls : List V}
    (hl : (lut = fun _ => .pub ls) ∨ ∃ l : PartyID → List (Share V), (lut = fun i => .shared (l i)) ∧ IsShares l ls)
    (hn : 2 ≤ ls.length) (hn' : ls.length ≤ 2 ^ 32) (hw : modBits p + 2 ≤ w) (ho : t = .yao → p % 2 = 1)
    {index : PartyID → Share (ZMod p)} {x : ZMod p} (hx : IsShare index x) (hr : x.val < ls.length)
    {value : PartyID → Share V} {val : V} (hv : IsShare value val) (hst : Corr t st) :
    Ensures (M := M) (fun i => writeToLut w (Point.promoteToTrivialShare gen) (index i) (value i) (lut i)) st (fun r st' =>
      (∃ l : PartyID → List (Share V), (r = fun i => .shared (l i)) ∧ IsShares l (ls.set x.val val)) ∧
        Corr t st') :=
  C46_write (fun v => Point.promote_share gen v) hl hn hn' hw ho hx hr hv hst

/-- C60: batched reading of public tables of points is right when the number of tables and the lengths of the tables round
up to the same power of two.  Missing from the property: all other cases, see `C60_batch_false`. -/
theorem C60_batch_partial {luts : List (List V)} (h2 : 2 ≤ luts.length) (hl : ∀ ls ∈ luts, ls.length ≤ 2 ^ 32)
    (hc : Nat.clog 2 (maxLen luts) = Nat.clog 2 luts.length)
    (hw : modBits p + 2 ≤ w) (ho : t = .yao → p % 2 = 1) {index : PartyID → Share (ZMod p)} {x : ZMod p} (hx : IsShare index x)
    (hr : ∀ ls ∈ luts, x.val < ls.length) (hst : Corr t st) :
    Ensures (M := M) (fun i => getPointsFromPublicLuts w (index i) luts) st (fun r st' =>
      IsShares r (luts.map fun ls => ls.getD x.val 0) ∧ Corr t st') := by
  have hmax : maxLen luts ≤ 2 ^ 32 := by
    refine max?_le_of_forall fun n hn => ?_
    obtain ⟨l, hl', rfl⟩ := List.mem_map.1 hn
    exact hl l hl'
  have hk := clog_le_of_le hmax
  have h := (spec_getPointsFromPublicLuts (M := M) h2 hk (by rw [← hc]; exact le_lutWidth hk) hw ho hx hst).ensures
  obtain ⟨l, hl'⟩ := List.exists_mem_of_ne_nil luts (by rintro rfl; simp at h2)
  rw [Nat.mod_eq_of_lt] at h
  · exact h
  · rw [← hc]
    exact lt_of_lt_of_le (hr l hl') (le_trans (le_maxLen hl') le_two_pow_clog)

/-- C60: false of the code in general: the batched lookup uses the number of tables in place of their length, so it reads the
entry at the index modulo the number of tables rounded up to a power of two.  For two tables it reads entry 0 for every even
index and entry 1 for every odd index, whatever the length of the tables (F11). -/
theorem C60_batch_false {l₀ l₁ : List V} (h : 2 ≤ l₀.length) (hn₀ : l₀.length ≤ 2 ^ 32)  (hn₁ : l₁.length ≤ 2 ^ 32)
    (hw : modBits p + 2 ≤ w) (ho : t = .yao → p % 2 = 1) {index : PartyID → Share (ZMod p)} {x : ZMod p} (hx : IsShare index x) (hst : Corr t st) :
    Ensures (M := M) (fun i => getPointsFromPublicLuts w (index i) [l₀, l₁]) st (fun r st' =>
      IsShares r [l₀.getD (x.val % 2) 0, l₁.getD (x.val % 2) 0] ∧ Corr t st') := by
  have hmax : maxLen [l₀, l₁] ≤ 2 ^ 32 := by
    refine max?_le_of_forall fun n hn => ?_
    obtain ⟨l, hl', rfl⟩ := List.mem_map.1 hn
    rcases List.mem_cons.1 hl' with rfl | hl'
    · exact hn₀
    · rw [List.mem_singleton.1 hl']; exact hn₁
  have hk := clog_le_of_le hmax
  have h2 : Nat.clog 2 2 = 1 := rfl
  have hpos : 0 < Nat.clog 2 (maxLen [l₀, l₁]) :=
    Nat.clog_pos (by norm_num) (le_trans h (le_maxLen (by simp)))
  have h := (spec_getPointsFromPublicLuts (M := M) (luts := [l₀, l₁]) (by simp) hk
    (by
      have := le_lutWidth hk
      simp only [List.length_cons, List.length_nil, h2]
      omega) hw ho hx hst).ensures
  simpa only [List.length_cons, List.length_nil, h2, pow_one, List.map_cons, List.map_nil] using h

end Field

/-! ### The hypotheses are met -/

instance : Fact (Nat.Prime 7) := ⟨by norm_num⟩

/-- A table of three entries, read at the shared index `2`. -/
example (t : A2BType) : Ensures₂ (getFromPublicLut (M := Msg) 5 (three ⟨3, 5⟩ ⟨1, 3⟩ ⟨5, 1⟩) [(4 : F7), 6, 5]
      (statesOf t) (statesOf t)) fun r s₀ s₁ =>
    IsShare r (5 : F7) ∧ Corr t s₀ ∧ Corr t s₁ :=
  C46_get_public_partial (by decide) (by decide) (by decide) (fun _ => rfl) (fun _ => demo_hash) isShare_two (by decide)
    (corr_statesOf t) (corr_statesOf t)
example : Ensures₂ (getFromPublicLutNoB2A (M := Msg) 8 six8 [(4 : F7), 6, 5, 1, 2, 0, 3] states states) fun r s₀ s₁ =>
    IsBShare r 3#8 ∧ Corr .direct s₀ ∧ Corr .direct s₁ :=
  C46_get_public_no_b2a_partial (by decide) (by decide) (by decide) isBShare_six8 (by decide) corr_states corr_states
example : Ensures (M := Msg) (fun i => readPublicLut 8 [(4 : F7), 6, 5, 1, 2, 0, 3] (six8 i)) states (fun r st' =>
    IsBShare r 3#8 ∧ Corr .direct st') :=
  C46_read_public_lut (by decide) (by decide) (by decide) isBShare_six8 (by decide) corr_states
example : Fails₂ (getFromPublicLut (M := Msg) 5 one7 [(4 : F7), 6] states states) fun e => ∃ m, e = .panic m :=
  C46_public_length_two_false (by decide) (by decide) (fun _ => rfl) isShare_one7 corr_states
example : Fails₂ (getFromPublicLut (M := Msg) 5 one7 [(4 : F7)] states states) fun e => ∃ m, e = .panic m :=
  C46_public_length_one_false (by decide) (by decide) (fun _ => rfl) isShare_one7 corr_states
example : Ensures (M := Msg) (fun i => getFromSharedLut (p := 7) 5 (one7 i) [three7 i, five7 i]) states (fun r st' =>
    IsShare r (5 : F7) ∧ Corr .direct st') :=
  C46_get_shared isShares_35 (by decide) (by decide) (by decide) (fun _ => rfl) isShare_one7 (by decide) corr_states
/-- Write `1` at position `1`, read there, and write `5` at position `1` again. -/
example : Ensures (M := Msg) (fun i => playTable (p := 7) 5 (promoteToTrivialShare)
      [.set (one7 i) (one7 i), .get (one7 i), .set (one7 i) (five7 i)] [three7 i, five7 i]) states (fun r st' =>
    (IsShares (fun i => (r i).1) [(1 : F7)] ∧ IsShares (fun i => (r i).2) [(3 : F7), 5]) ∧ Corr .direct st') :=
  C46_history (fun v => IsShare.promote v) (by decide) (fun _ => rfl)
    (vops := [.set 1 1, .get 1, .set 1 5])
    ⟨[fun i => .set (one7 i) (one7 i), fun i => .get (one7 i), fun i => .set (one7 i) (five7 i)], rfl,
      .cons (.set isShare_one7 isShare_one7) (.cons (.get isShare_one7) (.cons (.set isShare_one7 isShare_five7) .nil))⟩
    isShares_35 (by simp [InRange]) (by decide) (by decide) corr_states
example : Ensures₂ (getFromPublicLuts (M := Msg) 5 one7 [[(4 : F7), 6, 5], [1, 2, 3]] states states) fun r s₀ s₁ =>
    IsShares r [(6 : F7), 2] ∧ Corr .direct s₀ ∧ Corr .direct s₁ :=
  C47_equal_sizes_partial (n := 3) (by simp) (by simp) (by decide) (by decide) (by decide) (fun _ => rfl) (fun _ => demo_hash) isShare_one7 (by decide)
    corr_states corr_states
example : Fails₂ (getFromPublicLuts (M := Msg) 5 one7 [[(4 : F7), 6, 5], [1, 2]] states states) fun e => ∃ m, e = .panic m :=
  C47_different_sizes_false (lut := [1, 2]) (by simp) ⟨[4, 6, 5], by simp, by decide⟩ ⟨[4, 6, 5], by simp, by decide⟩
    (by simp) (by decide) (fun _ => rfl) isShare_one7 corr_states corr_states
/-- Two tables of four entries: at index `3` the code delivers the entries at position `1`. -/
example : Ensures (M := Msg) (fun i => getPointsFromPublicLuts (p := 7) 5 (three7 i) [[(4 : F7), 6, 5, 1], [1, 2, 3, 0]]) states
    (fun r st' => IsShares r [(6 : F7), 2] ∧ Corr .direct st') :=
  C60_batch_false (by decide) (by decide) (by decide) (by decide) (fun _ => rfl) isShare_three7 corr_states

end Verif.Props
