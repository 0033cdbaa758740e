import Verif.Yao.BlueprintLemmas

/-!
# Rules for integer division, decomposition, slicing and casts through garbled circuits
-/

namespace Verif.Yao.Gc

open PartyID Verif.Rep3
open Verif.Yao.Circ (divCeil)

variable {R M : Type} [YaoRng R] [YaoNet M] {ty : A2BType} {st : PartyID → Rep3State R}

omit [YaoRng R] [YaoNet M] in
theorem spec_first {β : Type} [AddCommGroup β] {r : PartyID → List (Share β)} {v : β} {vs : List β}
    (hr : IsShares r (v :: vs)) (hst : Corr ty st) :
    Spec (M := M) (fun i => first (r i)) st (fun r st' => IsShare r v ∧ Corr ty st') := by
  obtain ⟨l, rfl, hl⟩ := hr
  cases hl with
  | @cons s _ l _ h _ => exact Spec.pure ⟨h, hst⟩

section Field

variable {p w : Nat} [NeZero p] [Sample R (ZMod p)]

omit [YaoRng R] [YaoNet M] [Sample R (ZMod p)] in
theorem fieldType_pos : 0 < (fieldType p).size := modBits_pos' p

theorem length_limbs (n t x : Nat) : (limbs n t x).length = t := by simp [limbs]

theorem divCeil_pos {total size : Nat} (ht : 0 < total) (hs : 0 < size) : 0 < divCeil total size := by
  unfold divCeil
  exact Nat.div_pos (by omega) hs

/-- The pieces of `size` bits of the lowest `total` bits of a field element. -/
def pieces (total size : Nat) (v : ZMod p) : List (ZMod p) :=
  (limbs size (divCeil total size) (v.val % 2 ^ total)).map fun q : Nat => (q : ZMod p)

theorem spec_decomposeArithmeticMany (ho : p % 2 = 1) (hw : modBits p ≤ w) (hH : HashSeparates (YaoNet.hash M))
    {x : PartyID → List (Share (ZMod p))} {vs : List (ZMod p)} (hx : IsShares x vs) {total size : Nat}
    (ht : 0 < total) (htp : total ≤ modBits p) (hs : 0 < size) (hst : Corr ty st) :
    Spec (M := M) (fun i => decomposeArithmeticMany w (x i) total size) st (fun r st' =>
      IsShares r (vs.flatMap (pieces total size)) ∧ Corr ty st') := by
  unfold decomposeArithmeticMany
  simp only [if_neg (by omega : ¬ size = 0)]
  refine spec_blueprintN (fieldType_lawful ho) (fieldType_lawful ho) fieldType_pos fieldType_pos
    (bitsToField_fieldBits hw) hH hx (divCeil_pos ht hs) (fun v => by simp [pieces, length_limbs]) ?_ hst
  intro d u v cs _ _ a a' b b' c c' h1 h2 h3
  exact Yao.spec_decomposeField ho hs htp h1 h2 h3

theorem spec_decomposeArithmetic (ho : p % 2 = 1) (hw : modBits p ≤ w) (hH : HashSeparates (YaoNet.hash M))
    {x : PartyID → Share (ZMod p)} {v : ZMod p} (hx : IsShare x v) {total size : Nat}
    (ht : 0 < total) (htp : total ≤ modBits p) (hs : 0 < size) (hst : Corr ty st) :
    Spec (M := M) (fun i => decomposeArithmetic w (x i) total size) st (fun r st' =>
      IsShares r (pieces total size v) ∧ Corr ty st') := by
  have := spec_decomposeArithmeticMany (M := M) ho hw hH (Cols.cons hx Cols.nil) ht htp hs hst
  simp only [List.flatMap_cons, List.flatMap_nil, List.append_nil] at this
  exact this

theorem spec_fieldModPower2 (ho : p % 2 = 1) (hw : modBits p ≤ w) (hH : HashSeparates (YaoNet.hash M))
    {x : PartyID → Share (ZMod p)} {v : ZMod p} (hx : IsShare x v) {n : Nat}
    (hn : 0 < n) (hnp : n ≤ modBits p) (hst : Corr ty st) :
    Spec (M := M) (fun i => fieldModPower2 w (x i) n) st (fun r st' =>
      IsShare r ((v.val % 2 ^ n : Nat) : ZMod p) ∧ Corr ty st') := by
  refine (spec_decomposeArithmetic ho hw hH hx hn hnp hn hst).bind ?_
  rintro r st' ⟨hr, hst'⟩
  have e : divCeil n n = 1 := by unfold divCeil; exact Nat.div_eq_of_lt_le (by omega) (by omega)
  have : pieces n n v = [((v.val % 2 ^ n : Nat) : ZMod p)] := by
    simp [pieces, e, limbs]
  rw [this] at hr
  exact spec_first hr hst'

theorem spec_sliceArithmeticMany (ho : p % 2 = 1) (hw : modBits p ≤ w) (hH : HashSeparates (YaoNet.hash M))
    {x : PartyID → List (Share (ZMod p))} {vs : List (ZMod p)} (hx : IsShares x vs) {lo mid bitsize : Nat}
    (h1 : lo ≤ mid) (h2 : mid ≤ bitsize) (h3 : bitsize ≤ modBits p) (hst : Corr ty st) :
    Spec (M := M) (fun i => sliceArithmeticMany w (x i) lo mid bitsize) st (fun r st' =>
      IsShares r (vs.flatMap fun v => [((v.val % 2 ^ mid / 2 ^ lo : Nat) : ZMod p),
        ((v.val % 2 ^ bitsize / 2 ^ mid : Nat) : ZMod p)]) ∧ Corr ty st') := by
  refine spec_blueprintN (m := 2) (g := fun v : ZMod p => [((v.val % 2 ^ mid / 2 ^ lo : Nat) : ZMod p),
      ((v.val % 2 ^ bitsize / 2 ^ mid : Nat) : ZMod p)]) (fieldType_lawful ho) (fieldType_lawful ho) fieldType_pos
    fieldType_pos (bitsToField_fieldBits hw) hH hx (by omega) (fun v => by simp) ?_ hst
  intro d u v cs _ hcs a a' b b' c c' k1 k2 k3
  obtain ⟨c1, c2, rfl⟩ := List.length_eq_two.1 hcs
  exact Yao.spec_sliceField ho h1 h2 h3 k1 k2 k3

theorem spec_sliceArithmetic (ho : p % 2 = 1) (hw : modBits p ≤ w) (hH : HashSeparates (YaoNet.hash M))
    {x : PartyID → Share (ZMod p)} {v : ZMod p} (hx : IsShare x v) {lo mid bitsize : Nat}
    (h1 : lo ≤ mid) (h2 : mid ≤ bitsize) (h3 : bitsize ≤ modBits p) (hst : Corr ty st) :
    Spec (M := M) (fun i => sliceArithmetic w (x i) lo mid bitsize) st (fun r st' =>
      IsShares r [((v.val % 2 ^ mid / 2 ^ lo : Nat) : ZMod p), ((v.val % 2 ^ bitsize / 2 ^ mid : Nat) : ZMod p)] ∧
        Corr ty st') := by
  have := spec_sliceArithmeticMany (M := M) ho hw hH (Cols.cons hx Cols.nil) h1 h2 h3 hst
  simp only [List.flatMap_cons, List.flatMap_nil, List.append_nil] at this
  exact this

theorem spec_fieldIntDivPower2Many (ho : p % 2 = 1) (hw : modBits p ≤ w) (hH : HashSeparates (YaoNet.hash M))
    {x : PartyID → List (Share (ZMod p))} {vs : List (ZMod p)} (hx : IsShares x vs) (s : Nat) (hst : Corr ty st) :
    Spec (M := M) (fun i => fieldIntDivPower2Many w (x i) s) st (fun r st' =>
      IsShares r (vs.map fun v => ((v.val / 2 ^ s : Nat) : ZMod p)) ∧ Corr ty st') := by
  unfold fieldIntDivPower2Many
  by_cases h0 : s = 0
  · simp only [if_pos h0]
    subst h0
    refine Spec.pure ⟨?_, hst⟩
    simpa using hx
  simp only [if_neg h0]
  by_cases h1 : s ≥ modBits p
  · simp only [if_pos h1]
    refine Spec.pure ⟨?_, hst⟩
    simp only [fun i => Cols.length (P := IsShare) hx i]
    have e : (vs.map fun v => ((v.val / 2 ^ s : Nat) : ZMod p)) = List.replicate vs.length 0 := by
      rw [List.eq_replicate_iff]
      refine ⟨by simp, fun b hb => ?_⟩
      obtain ⟨v, -, rfl⟩ := List.mem_map.1 hb
      have h3 : v.val < 2 ^ s := (ZMod.val_lt v).trans (((lt_two_pow_modBits' p)).trans_le
        (Nat.pow_le_pow_right (by omega) h1))
      rw [Nat.div_eq_of_lt h3]
      simp
    rw [e]
    refine Cols.replicate _ ⟨fun i => rfl, ?_⟩
    simp [Share.zeroShare]
  · simp only [if_neg h1]
    refine spec_blueprint1 (fieldType_lawful ho) (fieldType_lawful ho) fieldType_pos fieldType_pos
      (bitsToField_fieldBits hw) hH hx ?_ hst
    intro d u v c₁ _ a a' b b' c c' k1 k2 k3
    exact Yao.spec_fieldIntDivPower2 ho k1 k2 k3

theorem spec_fieldIntDivPower2 (ho : p % 2 = 1) (hw : modBits p ≤ w) (hH : HashSeparates (YaoNet.hash M))
    {x : PartyID → Share (ZMod p)} {v : ZMod p} (hx : IsShare x v) (s : Nat) (hst : Corr ty st) :
    Spec (M := M) (fun i => fieldIntDivPower2 w (x i) s) st (fun r st' =>
      IsShare r ((v.val / 2 ^ s : Nat) : ZMod p) ∧ Corr ty st') := by
  refine (spec_fieldIntDivPower2Many (M := M) ho hw hH (Cols.cons hx Cols.nil) s hst).bind ?_
  rintro r st' ⟨hr, hst'⟩
  exact spec_first hr hst'

theorem spec_fieldIntDivMany (ho : p % 2 = 1) (hw : modBits p ≤ w) (hH : HashSeparates (YaoNet.hash M))
    {x y : PartyID → List (Share (ZMod p))} {vs us : List (ZMod p)} (hx : IsShares x vs) (hy : IsShares y us)
    (hl : us.length = vs.length) (h0 : ∀ u ∈ us, u ≠ 0) (hst : Corr ty st) :
    Spec (M := M) (fun i => fieldIntDivMany w (x i) (y i)) st (fun r st' =>
      IsShares r (List.zipWith (fun v u => ((v.val / u.val : Nat) : ZMod p)) vs us) ∧ Corr ty st') := by
  unfold fieldIntDivMany
  simp only [fun i => Cols.length (P := IsShare) hx i]
  refine spec_blueprintH (fieldType_lawful ho) fieldType_pos (bitsToField_fieldBits hw) hH hx hy hl ?_ hst
  intro d x1 x2 y1 y2 c₁ _ hu a a' b b' u u' v v' c c' k1 k2 k3 k4 k5
  exact Yao.spec_fieldIntDiv ho (h0 _ hu) k1 k2 k3 k4 k5

theorem spec_fieldIntDiv (ho : p % 2 = 1) (hw : modBits p ≤ w) (hH : HashSeparates (YaoNet.hash M))
    {x y : PartyID → Share (ZMod p)} {v u : ZMod p} (hx : IsShare x v) (hy : IsShare y u) (h0 : u ≠ 0)
    (hst : Corr ty st) :
    Spec (M := M) (fun i => fieldIntDiv w (x i) (y i)) st (fun r st' =>
      IsShare r ((v.val / u.val : Nat) : ZMod p) ∧ Corr ty st') := by
  refine (spec_fieldIntDivMany (M := M) ho hw hH (Cols.cons hx Cols.nil) (Cols.cons hy Cols.nil) rfl (by simpa using h0)
    hst).bind ?_
  rintro r st' ⟨hr, hst'⟩
  exact spec_first hr hst'

theorem spec_fieldIntDivByPublicMany (ho : p % 2 = 1) (hw : modBits p ≤ w) (hH : HashSeparates (YaoNet.hash M))
    {x : PartyID → List (Share (ZMod p))} {vs us : List (ZMod p)} (hx : IsShares x vs)
    (hl : us.length = vs.length) (h0 : ∀ u ∈ us, u ≠ 0) (hst : Corr ty st) :
    Spec (M := M) (fun i => fieldIntDivByPublicMany w (x i) us) st (fun r st' =>
      IsShares r (List.zipWith (fun v u => ((v.val / u.val : Nat) : ZMod p)) vs us) ∧ Corr ty st') := by
  unfold fieldIntDivByPublicMany
  simp only [fun i => Cols.length (P := IsShare) hx i]
  refine spec_blueprintP (f := Circ.fieldIntDivByPublic p (modBits p)) (fieldType_lawful ho) fieldType_pos
    (bitsToField_fieldBits hw) hH hx hl ?_ hst
  intro d x1 x2 y c₁ _ hu a a' b b' c c' k1 k2 k3
  exact Yao.spec_fieldIntDivByPublic ho (h0 _ hu) k1 k2 k3

theorem spec_fieldIntDivByPublic (ho : p % 2 = 1) (hw : modBits p ≤ w) (hH : HashSeparates (YaoNet.hash M))
    {x : PartyID → Share (ZMod p)} {v u : ZMod p} (hx : IsShare x v) (h0 : u ≠ 0) (hst : Corr ty st) :
    Spec (M := M) (fun i => fieldIntDivByPublic w (x i) u) st (fun r st' =>
      IsShare r ((v.val / u.val : Nat) : ZMod p) ∧ Corr ty st') := by
  refine (spec_fieldIntDivByPublicMany (M := M) ho hw hH (us := [u]) (Cols.cons hx Cols.nil) rfl (by simpa using h0)
    hst).bind ?_
  rintro r st' ⟨hr, hst'⟩
  exact spec_first hr hst'

theorem spec_fieldIntDivBySharedMany (ho : p % 2 = 1) (hw : modBits p ≤ w) (hH : HashSeparates (YaoNet.hash M))
    {y : PartyID → List (Share (ZMod p))} {vs us : List (ZMod p)} (hy : IsShares y us)
    (hl : vs.length = us.length) (h0 : ∀ u ∈ us, u ≠ 0) (hst : Corr ty st) :
    Spec (M := M) (fun i => fieldIntDivBySharedMany w vs (y i)) st (fun r st' =>
      IsShares r (List.zipWith (fun v u => ((v.val / u.val : Nat) : ZMod p)) vs us) ∧ Corr ty st') := by
  unfold fieldIntDivBySharedMany
  rw [hl, List.zipWith_comm]
  refine spec_blueprintP (f := Circ.fieldIntDivByShared p (modBits p)) (fieldType_lawful ho) fieldType_pos
    (bitsToField_fieldBits hw) hH hy hl ?_ hst
  intro d x1 x2 y c₁ hu _ a a' b b' c c' k1 k2 k3
  exact Yao.spec_fieldIntDivByShared ho (h0 _ hu) k1 k2 k3

theorem spec_fieldIntDivByShared (ho : p % 2 = 1) (hw : modBits p ≤ w) (hH : HashSeparates (YaoNet.hash M))
    {y : PartyID → Share (ZMod p)} {v u : ZMod p} (hy : IsShare y u) (h0 : u ≠ 0) (hst : Corr ty st) :
    Spec (M := M) (fun i => fieldIntDivByShared w v (y i)) st (fun r st' =>
      IsShare r ((v.val / u.val : Nat) : ZMod p) ∧ Corr ty st') := by
  refine (spec_fieldIntDivBySharedMany (M := M) ho hw hH (vs := [v]) (Cols.cons hy Cols.nil) rfl (by simpa using h0)
    hst).bind ?_
  rintro r st' ⟨hr, hst'⟩
  exact spec_first hr hst'

end Field

section Ring

variable {p k w : Nat}

theorem bits_foldr {n : Nat} (x : List Bool) (h : x.length ≤ n) :
    x.foldr (fun b (res : BitVec n) => (res <<< 1) ||| BitVec.ofNat n b.toNat) 0#n = BitVec.ofNat n (val x) := by
  induction x with
  | nil => rfl
  | cons b x ih =>
    rw [List.foldr_cons, ih (by simp at h; omega)]
    apply BitVec.eq_of_getLsbD_eq
    intro i hi
    simp only [BitVec.getLsbD_or, BitVec.getLsbD_shiftLeft, BitVec.getLsbD_ofNat, hi, decide_true, Bool.true_and,
      testBit_val]
    cases i with
    | zero => cases b <;> simp
    | succ i =>
      have : (b.toNat).testBit (i + 1) = false := by cases b <;> simp [Nat.testBit_succ]
      simp [this]
      intro hh
      omega

theorem bitsToRing_ringBits (v : BitVec k) : bitsToRing k (ringBits v) = .ok v := by
  have hl := length_ringBits v
  unfold bitsToRing
  rw [if_neg (by omega), bits_foldr _ hl.le, val_ringBits, BitVec.ofNat_toNat, BitVec.setWidth_eq]

theorem collapseRing_eq {x : List Label} (h : x.length ≤ k) : collapseRing k x = .ok (collapse k x) := by
  unfold collapseRing
  rw [if_neg (by omega), collapse_eq, ← bits_foldr _ (by simpa using h), List.foldr_map]

theorem spec_fieldToRingMany [NeZero p] [Sample R (BitVec k)] (ho : p % 2 = 1) (hk : 0 < k) (hkp : k ≤ modBits p)
    (hH : HashSeparates (YaoNet.hash M)) {x : PartyID → List (Share (ZMod p))} {vs : List (ZMod p)}
    (hx : IsShares x vs) (hst : Corr ty st) :
    Spec (M := M) (fun i => fieldToRingMany (k := k) (x i)) st (fun r st' =>
      IsShares r (vs.map fun v => BitVec.ofNat k v.val) ∧ Corr ty st') := by
  refine spec_blueprint1 (fieldType_lawful ho) (ringType_lawful hk) fieldType_pos hk bitsToRing_ringBits hH hx ?_ hst
  intro d u v c₁ _ a a' b b' c c' k1 k2 k3
  exact Yao.spec_fieldToRing ho hk hkp k1 k2 k3

theorem spec_ringToFieldManyGc [NeZero p] [Sample R (ZMod p)] (ho : p % 2 = 1) (hw : modBits p ≤ w) (hk : 0 < k)
    (hkp : k ≤ modBits p) (hH : HashSeparates (YaoNet.hash M)) {x : PartyID → List (Share (BitVec k))}
    {vs : List (BitVec k)} (hx : IsShares x vs) (hlt : ∀ v ∈ vs, v.toNat < p) (hst : Corr ty st) :
    Spec (M := M) (fun i => ringToFieldManyGc (p := p) w (x i)) st (fun r st' =>
      IsShares r (vs.map fun v => (v.toNat : ZMod p)) ∧ Corr ty st') := by
  refine spec_blueprint1 (ringType_lawful hk) (fieldType_lawful ho) hk fieldType_pos (bitsToField_fieldBits hw)
    hH hx ?_ hst
  intro d u v c₁ hv a a' b b' c c' k1 k2 k3
  exact Yao.spec_ringToField ho hk hkp (hlt _ hv) k1 k2 k3

theorem spec_upcastManyGc {l : Nat} [Sample R (BitVec l)] (hk : 0 < k) (hkl : k < l)
    (hH : HashSeparates (YaoNet.hash M)) {x : PartyID → List (Share (BitVec k))}
    {vs : List (BitVec k)} (hx : IsShares x vs) (hst : Corr ty st) :
    Spec (M := M) (fun i => upcastManyGc (l := l) (x i)) st (fun r st' =>
      IsShares r (vs.map fun v => v.setWidth l) ∧ Corr ty st') := by
  refine spec_blueprint1 (ringType_lawful hk) (ringType_lawful (by omega)) hk (by show 0 < l; omega) bitsToRing_ringBits
    hH hx ?_ hst
  intro d u v c₁ hv a a' b b' c c' k1 k2 k3
  exact Yao.spec_ringToRingUpcast hk hkl k1 k2 k3

section

variable [Sample R (BitVec k)]

theorem spec_ringDivPower2Many (hk : 0 < k) (hH : HashSeparates (YaoNet.hash M))
    {x : PartyID → List (Share (BitVec k))} {vs : List (BitVec k)} (hx : IsShares x vs) (s : Nat) (hst : Corr ty st) :
    Spec (M := M) (fun i => ringDivPower2Many (x i) s) st (fun r st' =>
      IsShares r (vs.map fun v : BitVec k => v >>> s) ∧ Corr ty st') := by
  unfold ringDivPower2Many
  by_cases h0 : s = 0
  · simp only [if_pos h0]
    subst h0
    refine Spec.pure ⟨?_, hst⟩
    simpa using hx
  simp only [if_neg h0]
  by_cases h1 : s ≥ k
  · simp only [if_pos h1]
    refine Spec.pure ⟨?_, hst⟩
    simp only [fun i => Cols.length (P := IsShare) hx i]
    have e : (vs.map fun v : BitVec k => v >>> s) = List.replicate vs.length 0 := by
      rw [List.eq_replicate_iff]
      refine ⟨by simp, fun b hb => ?_⟩
      obtain ⟨v, -, rfl⟩ := List.mem_map.1 hb
      exact BitVec.ushiftRight_eq_zero h1
    rw [e]
    refine Cols.replicate _ ⟨fun i => rfl, ?_⟩
    simp [Share.zeroShare]
  · simp only [if_neg h1]
    refine spec_blueprint1 (ringType_lawful hk) (ringType_lawful hk) hk hk bitsToRing_ringBits hH hx ?_ hst
    intro d u v c₁ _ a a' b b' c c' k1 k2 k3
    have := Yao.spec_ringDivPower2 (E := Enc d) (s := s) (by omega) (by omega) k1 k2 k3
    have e : BitVec.ofNat k ((u + v).toNat / 2 ^ s) = (u + v) >>> s := by
      apply BitVec.eq_of_toNat_eq
      rw [BitVec.toNat_ofNat, BitVec.toNat_ushiftRight, Nat.shiftRight_eq_div_pow,
        Nat.mod_eq_of_lt ((Nat.div_le_self _ _).trans_lt (u + v).isLt)]
    rwa [e] at this

theorem spec_ringDivPower2 (hk : 0 < k) (hH : HashSeparates (YaoNet.hash M))
    {x : PartyID → Share (BitVec k)} {v : BitVec k} (hx : IsShare x v) (s : Nat) (hst : Corr ty st) :
    Spec (M := M) (fun i => ringDivPower2 (x i) s) st (fun r st' =>
      IsShare r (v >>> s) ∧ Corr ty st') := by
  refine (spec_ringDivPower2Many (M := M) hk hH (Cols.cons hx Cols.nil) s hst).bind ?_
  rintro r st' ⟨hr, hst'⟩
  exact spec_first hr hst'

theorem spec_ringDivMany (hk : 0 < k) (hH : HashSeparates (YaoNet.hash M))
    {x y : PartyID → List (Share (BitVec k))} {vs us : List (BitVec k)} (hx : IsShares x vs) (hy : IsShares y us)
    (hl : us.length = vs.length) (h0 : ∀ u ∈ us, u ≠ 0) (hst : Corr ty st) :
    Spec (M := M) (fun i => ringDivMany (x i) (y i)) st (fun r st' =>
      IsShares r (List.zipWith (· / ·) vs us) ∧ Corr ty st') := by
  unfold ringDivMany
  simp only [fun i => Cols.length (P := IsShare) hx i]
  refine spec_blueprintH (ringType_lawful hk) hk bitsToRing_ringBits hH hx hy hl ?_ hst
  intro d x1 x2 y1 y2 c₁ _ hu a a' b b' u u' v v' c c' k1 k2 k3 k4 k5
  exact Yao.spec_ringDiv hk (h0 _ hu) k1 k2 k3 k4 k5

theorem spec_ringDiv (hk : 0 < k) (hH : HashSeparates (YaoNet.hash M))
    {x y : PartyID → Share (BitVec k)} {v u : BitVec k} (hx : IsShare x v) (hy : IsShare y u) (h0 : u ≠ 0)
    (hst : Corr ty st) :
    Spec (M := M) (fun i => ringDiv (x i) (y i)) st (fun r st' => IsShare r (v / u) ∧ Corr ty st') := by
  refine (spec_ringDivMany (M := M) hk hH (Cols.cons hx Cols.nil) (Cols.cons hy Cols.nil) rfl (by simpa using h0)
    hst).bind ?_
  rintro r st' ⟨hr, hst'⟩
  exact spec_first hr hst'

theorem spec_ringDivByPublicMany (hk : 0 < k) (hH : HashSeparates (YaoNet.hash M))
    {x : PartyID → List (Share (BitVec k))} {vs us : List (BitVec k)} (hx : IsShares x vs)
    (hl : us.length = vs.length) (h0 : ∀ u ∈ us, u ≠ 0) (hst : Corr ty st) :
    Spec (M := M) (fun i => ringDivByPublicMany (x i) us) st (fun r st' =>
      IsShares r (List.zipWith (· / ·) vs us) ∧ Corr ty st') := by
  unfold ringDivByPublicMany
  simp only [fun i => Cols.length (P := IsShare) hx i]
  refine spec_blueprintP (f := Circ.ringDivByPublic) (ringType_lawful hk) hk bitsToRing_ringBits hH hx hl ?_ hst
  intro d x1 x2 y c₁ _ hu a a' b b' c c' k1 k2 k3
  exact Yao.spec_ringDivByPublic hk (h0 _ hu) k1 k2 k3

theorem spec_ringDivByPublic (hk : 0 < k) (hH : HashSeparates (YaoNet.hash M))
    {x : PartyID → Share (BitVec k)} {v u : BitVec k} (hx : IsShare x v) (h0 : u ≠ 0) (hst : Corr ty st) :
    Spec (M := M) (fun i => ringDivByPublic (x i) u) st (fun r st' => IsShare r (v / u) ∧ Corr ty st') := by
  refine (spec_ringDivByPublicMany (M := M) hk hH (us := [u]) (Cols.cons hx Cols.nil) rfl (by simpa using h0)
    hst).bind ?_
  rintro r st' ⟨hr, hst'⟩
  exact spec_first hr hst'

theorem spec_ringDivBySharedMany (hk : 0 < k) (hH : HashSeparates (YaoNet.hash M))
    {y : PartyID → List (Share (BitVec k))} {vs us : List (BitVec k)} (hy : IsShares y us)
    (hl : vs.length = us.length) (h0 : ∀ u ∈ us, u ≠ 0) (hst : Corr ty st) :
    Spec (M := M) (fun i => ringDivBySharedMany vs (y i)) st (fun r st' =>
      IsShares r (List.zipWith (· / ·) vs us) ∧ Corr ty st') := by
  unfold ringDivBySharedMany
  simp only [fun i => Cols.length (P := IsShare) hy i, hl, ne_eq, not_true_eq_false, if_false]
  rw [List.zipWith_comm]
  refine spec_blueprintP (f := Circ.ringDivByShared) (ringType_lawful hk) hk bitsToRing_ringBits hH hy hl ?_ hst
  intro d x1 x2 y c₁ hu _ a a' b b' c c' k1 k2 k3
  exact Yao.spec_ringDivByShared hk (h0 _ hu) k1 k2 k3

theorem spec_ringDivByShared (hk : 0 < k) (hH : HashSeparates (YaoNet.hash M))
    {y : PartyID → Share (BitVec k)} {v u : BitVec k} (hy : IsShare y u) (h0 : u ≠ 0) (hst : Corr ty st) :
    Spec (M := M) (fun i => ringDivByShared v (y i)) st (fun r st' => IsShare r (v / u) ∧ Corr ty st') := by
  refine (spec_ringDivBySharedMany (M := M) hk hH (vs := [v]) (Cols.cons hy Cols.nil) rfl (by simpa using h0)
    hst).bind ?_
  rintro r st' ⟨hr, hst'⟩
  exact spec_first hr hst'

theorem spec_decomposeFieldToRingsMany [NeZero p] (ho : p % 2 = 1) (hH : HashSeparates (YaoNet.hash M))
    {x : PartyID → List (Share (ZMod p))} {vs : List (ZMod p)} (hx : IsShares x vs) {num size : Nat}
    (hn : 0 < num) (hs : 0 < size) (ht : size * num ≤ modBits p) (hsk : size ≤ k) (hst : Corr ty st) :
    Spec (M := M) (fun i => decomposeFieldToRingsMany (k := k) (x i) num size) st (fun r st' =>
      IsShares r (vs.flatMap fun v => (limbs size num v.val).map fun q : Nat => BitVec.ofNat k q) ∧ Corr ty st') := by
  have e : ∀ v : ZMod p, limbs size num v.val = limbs size num (v.val % 2 ^ (size * num)) := by
    intro v
    unfold limbs
    refine List.map_congr_left fun i hi => ?_
    have hi : i < num := by simpa using hi
    have h1 : size * num = size * i + size * (num - i) := by rw [← Nat.mul_add]; congr 1; omega
    rw [h1, pow_add, Nat.mod_mul_right_div_self]
    have h2 : 2 ^ size ∣ 2 ^ (size * (num - i)) := pow_dvd_pow _ (Nat.le_mul_of_pos_right _ (by omega))
    rw [Nat.mod_mod_of_dvd _ h2]
  simp only [e]
  refine spec_blueprintN (fieldType_lawful ho) (ringType_lawful (by omega)) fieldType_pos (by show 0 < k; omega)
    bitsToRing_ringBits hH hx hn (fun v => by simp [length_limbs]) ?_ hst
  intro d u v cs _ _ a a' b b' c c' k1 k2 k3
  exact Yao.spec_decomposeToRings ho hs ht hsk k1 k2 k3

theorem spec_decomposeFieldToRings [NeZero p] (ho : p % 2 = 1) (hH : HashSeparates (YaoNet.hash M))
    {x : PartyID → Share (ZMod p)} {v : ZMod p} (hx : IsShare x v) {num size : Nat}
    (hn : 0 < num) (hs : 0 < size) (ht : size * num ≤ modBits p) (hsk : size ≤ k) (hst : Corr ty st) :
    Spec (M := M) (fun i => decomposeFieldToRings (k := k) (x i) num size) st (fun r st' =>
      IsShares r ((limbs size num v.val).map fun q : Nat => BitVec.ofNat k q) ∧ Corr ty st') := by
  have := spec_decomposeFieldToRingsMany (M := M) ho hH (Cols.cons hx Cols.nil) hn hs ht hsk hst
  simp only [List.flatMap_cons, List.flatMap_nil, List.append_nil] at this
  exact this

end

theorem spec_ringDivByPublicToLimbsMany [NeZero p] [Sample R (ZMod p)] (ho : p % 2 = 1) (hw : modBits p ≤ w)
    (hk : 0 < k) (hH : HashSeparates (YaoNet.hash M)) {x : PartyID → List (Share (BitVec k))}
    {vs : List (BitVec k)} (hx : IsShares x vs) {divisor : BitVec 512} (h0 : divisor.setWidth k ≠ 0)
    {size num : Nat} (hs : 0 < size) (hsp : size < modBits p) (hn : 0 < num) (hnum : num ≤ divCeil k size)
    (hst : Corr ty st) :
    Spec (M := M) (fun i => ringDivByPublicToLimbsMany (p := p) w (x i) divisor size num) st (fun r st' =>
      IsShares r (vs.flatMap fun v => (limbs size num (v / divisor.setWidth k).toNat ++
        limbs size num (v % divisor.setWidth k).toNat).map fun q : Nat => (q : ZMod p)) ∧ Corr ty st') := by
  have := spec_blueprintN (M := M) (ringType_lawful hk) (fieldType_lawful ho) hk fieldType_pos (bitsToField_fieldBits hw)
    hH hx (m := 2 * num) (by omega) (g := fun v => (limbs size num (v / divisor.setWidth k).toNat ++
        limbs size num (v % divisor.setWidth k).toNat).map fun q : Nat => (q : ZMod p))
    (fun v => by simp [length_limbs]; omega)
    (f := Circ.ringDivByPublicToLimbs p (modBits p) (ringBits (divisor.setWidth k)) size num) (by
      intro d u v cs _ hcs a a' b b' c c' k1 k2 k3
      exact Yao.spec_ringDivByPublicToLimbs ho hk h0 hs hsp hnum hcs k1 k2 k3) hst
  unfold ringDivByPublicToLimbsMany Circ.ringDivByPublicToLimbsMany
  have e1 : ∀ i, 2 * num * (x i).length = 2 * (x i).length * num := fun i => by ring
  have e2 : (fieldType p).size * (2 * num) = 2 * modBits p * num := by
    show modBits p * (2 * num) = _
    ring
  simp only [e1, e2] at this
  exact this

/-! ### Conversions -/

/-- The scalar form returns the first two of the limbs. -/
theorem spec_ringDivByPublicToLimbs [NeZero p] [Sample R (ZMod p)] (ho : p % 2 = 1) (hw : modBits p ≤ w)
    (hk : 0 < k) (hH : HashSeparates (YaoNet.hash M)) {x : PartyID → Share (BitVec k)}
    {v : BitVec k} (hx : IsShare x v) {divisor : BitVec 512} (h0 : divisor.setWidth k ≠ 0)
    {size num : Nat} (hs : 0 < size) (hsp : size < modBits p) (hn : 0 < num) (hnum : num ≤ divCeil k size)
    (hst : Corr ty st) {a b : Nat} {rest : List Nat}
    (e : limbs size num (v / divisor.setWidth k).toNat ++ limbs size num (v % divisor.setWidth k).toNat
      = a :: b :: rest) :
    Spec (M := M) (fun i => ringDivByPublicToLimbs (p := p) w (x i) divisor size num) st (fun r st' =>
      IsShare (fun i => (r i).1) (a : ZMod p) ∧ IsShare (fun i => (r i).2) (b : ZMod p) ∧ Corr ty st') := by
  refine (spec_ringDivByPublicToLimbsMany (M := M) ho hw hk hH (Cols.cons hx Cols.nil) h0 hs hsp hn hnum hst).bind ?_
  rintro r st' ⟨hr, hst'⟩
  simp only [List.flatMap_cons, List.flatMap_nil, List.append_nil, e, List.map_cons] at hr
  obtain ⟨l, rfl, hl⟩ := hr
  cases hl with
  | cons h hl => cases hl with
    | cons h' hl => exact Spec.pure ⟨h, h', hst'⟩

omit [YaoRng R] [YaoNet M] in
theorem spec_y2bRing [Sample R (BitVec k)] [UintCodec M k] {d : Label} (hd : d.color = true)
    {y : PartyID → List Label} {v : BitVec k}
    (hy : IsYShare d y (ringBits v)) (hst : Corr ty st) :
    Spec (M := M) (fun i => y2bRing (k := k) (y i)) st (fun r st' => IsBShare r v ∧ Corr ty st') := by
  have h1 := hst.rand ID1
  simp only [PartyID.ID1_prev] at h1
  obtain ⟨h, e⟩ := isYShare_iff.1 hy
  have l1 : (y ID1).length ≤ k := by rw [h.len, length_ringBits]
  have l0 : (y ID0).length ≤ k := by rw [h.len', length_ringBits]
  have l2 : (y ID2).length ≤ k := by rw [e]; exact l1
  have key := isBShare_y2b (w := k) hd hy (Sample.sample (α := BitVec k) (st ID0).rngs.rand.rng1 |>.1)
  rw [val_ringBits, BitVec.ofNat_toNat, BitVec.setWidth_eq] at key
  refine Spec3 ?_
  simp [y2bRing, stateId, hst.id, withRand, withRngs, sendTo, recvFrom, sendMany, recvMany, orFail,
    exactlyOne, MPC.recv_apply, Rep3Rand.draw1, Rep3Rand.draw2, h1, collapseRing_eq l0, collapseRing_eq l1,
    collapseRing_eq l2]
  refine ⟨key, ?_⟩
  constructor <;> (try intro i) <;> (try cases i) <;>
      simp [hst.id, hst.rand, hst.a2b, hst.bc1a, hst.bc1b, hst.bc1c, hst.bc2a, hst.bc2b, hst.bc2c]

theorem spec_a2y2bRing [Sample R (BitVec k)] [UintCodec M k] (hk : 0 < k) {x : PartyID → Share (BitVec k)}
    {v : BitVec k} (hx : IsShare x v) (hst : Corr ty st) :
    Spec (M := M) (fun i => a2y2bRing (x i)) st (fun r st' => IsBShare r v ∧ Corr ty st') := by
  refine (spec_delta hst).bind ?_
  rintro delta st' ⟨⟨d, hd⟩, hst'⟩
  refine (spec_a2yOf (ringType_lawful hk) hx hd hst').bind ?_
  rintro y st'' ⟨hy, hst''⟩
  exact spec_y2bRing hd.color hy hst''

theorem spec_a2y2bRingStreaming [Sample R (BitVec k)] [UintCodec M k] (hk : 0 < k) {x : PartyID → Share (BitVec k)}
    {v : BitVec k} (hx : IsShare x v) (hst : Corr ty st) :
    Spec (M := M) (fun i => a2y2bRingStreaming (x i)) st (fun r st' => IsBShare r v ∧ Corr ty st') := by
  refine (spec_delta hst).bind ?_
  rintro delta st' ⟨⟨d, hd⟩, hst'⟩
  refine (spec_a2yStreamingOf (ringType_lawful hk) hx hd hst').bind ?_
  rintro y st'' ⟨hy, hst''⟩
  exact spec_y2bRing hd.color hy hst''

theorem spec_b2y2aRing [Sample R (BitVec k)] (hk : 0 < k) (hH : HashSeparates (YaoNet.hash M))
    {x : PartyID → Share (BitVec k)} {v : BitVec k} (hx : IsBShare x v) (hst : Corr ty st) :
    Spec (M := M) (fun i => b2y2aRing (x i)) st (fun r st' => IsShare r v ∧ Corr ty st') :=
  spec_b2yW (ringType_lawful hk) hx (u := v) rfl hst
    (fun hd hy hst hdec => spec_y2aOf (ringType_lawful hk) bitsToRing_ringBits hd hy hst hdec)
    (separated_b2yW hH (ringType_lawful hk) hx rfl hst)

theorem spec_b2y2aRingStreaming [Sample R (BitVec k)] (hk : 0 < k) (hH : HashSeparates (YaoNet.hash M))
    {x : PartyID → Share (BitVec k)} {v : BitVec k} (hx : IsBShare x v) (hst : Corr ty st) :
    Spec (M := M) (fun i => b2y2aRingStreaming (x i)) st (fun r st' => IsShare r v ∧ Corr ty st') :=
  spec_b2yW (ringType_lawful hk) hx (u := v) rfl hst
    (fun hd hy hst hdec => spec_y2aStreamingOf (ringType_lawful hk) bitsToRing_ringBits hd hy hst hdec)
    (separated_b2yW hH (ringType_lawful hk) hx rfl hst)

end Ring

end Verif.Yao.Gc
