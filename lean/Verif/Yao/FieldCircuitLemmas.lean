import Verif.Yao.CircuitLemmas

/-!
# What the circuits over field elements and the dividers compute
-/

namespace Verif.Yao

open Circ

variable {I J : Type} {E : I → J → Bool → Prop}

theorem map_zip_ite {t : Bool} (xs ys : List Bool) (h : xs.length = ys.length) :
    (xs.zip ys).map (fun p => if t then p.2 else p.1) = if t then ys else xs := by
  induction xs generalizing ys with
  | nil => cases ys <;> simp_all
  | cons x xs ih =>
    cases ys with
    | nil => simp at h
    | cons y ys =>
      rw [List.zip_cons_cons, List.map_cons, ih ys (by simpa using h)]
      cases t <;> rfl

theorem spec_binMultiplex {b b' t xs xs' ps ys ys' qs} (hb : E b b' t) (hx : All3 E xs xs' ps)
    (hy : All3 E ys ys' qs) :
    CSpec E (fun r r' => All3 E r r' ((ps.zip qs).map fun p => if t then p.2 else p.1))
      (binMultiplex b xs ys) (binMultiplex b' xs' ys') :=
  CSpec.mapM (S := E) (fun p : Bool × Bool => if t then p.2 else p.1)
    (fun _ _ _ h => CSpec.gMux hb h.1 h.2) (hx.zip hy)

theorem spec_muxConst {b b' t y y' q} (x : Bool) (hb : E b b' t) (hy : E y y' q) :
    CSpec E (fun r r' => E r r' (if t then q else x)) (muxConst b x y) (muxConst b' x y') := by
  cases x
  · refine (CSpec.gAnd hb hy).mono fun r r' h => ?_
    convert h using 1
    cases t <;> rfl
  · refine (CSpec.gNot hb).bind fun n n' hn => ?_
    refine (CSpec.gOr hn hy).mono fun r r' h => ?_
    convert h using 1
    cases t <;> rfl

theorem spec_binMultiplexConst {b b' t} {ys : List I} {ys' : List J} {qs} (ps : List Bool)
    (hb : E b b' t) (hy : All3 E ys ys' qs) :
    CSpec E (fun r r' => All3 E r r' ((ps.zip qs).map fun p => if t then p.2 else p.1))
      (binMultiplexConst b ps ys) (binMultiplexConst b' ps ys') := by
  refine CSpec.mapM (S := E) (fun p : Bool × Bool => if t then p.2 else p.1) ?_
    ((All3.refl (l := ps)).zip hy)
  rintro a a' n ⟨⟨h1, h2⟩, h⟩
  rw [h1, h2]
  exact spec_muxConst _ hb h

theorem spec_xorMany {xs xs' ps ys ys' qs} (hx : All3 E xs xs' ps) (hy : All3 E ys ys' qs) :
    CSpec E (fun r r' => All3 E r r' ((ps.zip qs).map fun p => p.1 ^^ p.2))
      (xorMany xs ys) (xorMany xs' ys') :=
  CSpec.mapM (S := E) (fun p : Bool × Bool => p.1 ^^ p.2)
    (fun _ _ _ h => CSpec.gXor h.1 h.2) (hx.zip hy)

/-! ### Reduction modulo `p` -/

theorem uintToBits_succ_last (v n : Nat) :
    uintToBits v (n + 1) = uintToBits v n ++ [(v / 2 ^ n) % 2 == 1] := by
  apply val_inj
  · simp [length_uintToBits]
  rw [val_append, val_uintToBits, val_uintToBits, length_uintToBits, pow_succ, Nat.mod_mul]
  congr 2
  simp only [val, Nat.mul_zero, Nat.add_zero]
  rcases Nat.mod_two_eq_zero_or_one (v / 2 ^ n) with h | h <;> simp [h]

/-- Subtracting `p`: the top bit of `w + 2^(n+1) - p` tells whether `w < p`. -/
theorem spec_subP {p : Nat} (hp : p % 2 = 1) {xs : List I} {xs' : List J} {ps c c' z} (hx : All3 E xs xs' ps)
    (hc : E c c' z) (hlt : p < 2 ^ ps.length) (hw : val ps + 2 ^ ps.length * z.toNat < 2 * p) :
    CSpec E (fun r r' => ∃ ss ov, All3 E r.1 r'.1 ss ∧ E r.2 r'.2 ov ∧ ss.length = ps.length ∧
        ov = decide (val ps + 2 ^ ps.length * z.toNat < p) ∧
        (p ≤ val ps + 2 ^ ps.length * z.toNat → val ss = val ps + 2 ^ ps.length * z.toNat - p))
      (subP p xs c) (subP p xs' c') := by
  cases hx with
  | nil =>
    simp at hlt
    omega
  | @cons x x' b xs xs' ps h hx =>
    simp only [subP, List.length_cons, hx.len, hx.len']
    set n := ps.length with hn
    set pb := uintToBits (2 ^ (n + 1 + 1) - p) (n + 1 + 1) with hpb
    simp only [List.length_cons, ← hn] at hlt hw ⊢
    have hpow : 2 ^ (n + 1 + 1) = 2 * 2 ^ (n + 1) := by rw [pow_succ]; ring
    have hpow' : 2 ^ (n + 1) = 2 * 2 ^ n := by rw [pow_succ]; ring
    have hb1 : pb.getLastD false = true := by
      rw [hpb, uintToBits_succ_last, List.getLastD_eq_getLast?]
      simp only [List.getLast?_append, List.getLast?_singleton, Option.some_or, Option.getD_some,
        beq_iff_eq]
      have : (2 ^ (n + 1 + 1) - p) / 2 ^ (n + 1) = 1 := by
        rw [Nat.div_eq_iff (Nat.two_pow_pos _)]
        omega
      rw [this]
    have hb0 : pb = true :: pb.tail := by
      rw [hpb, uintToBits, List.tail_cons]
      congr 1
      have : (2 ^ (n + 1 + 1) - p) % 2 = 1 := by omega
      simp [this]
    have htl : pb.tail.length = n + 1 := by rw [List.length_tail, hpb, length_uintToBits]; rfl
    have hvp : val pb = 2 ^ (n + 1 + 1) - p := by
      rw [hpb, val_uintToBits, Nat.mod_eq_of_lt]; have := Nat.two_pow_pos (n+1+1); omega
    refine (CSpec.gNot h).bind fun s s' hs => ?_
    have hscan := CSpec.scan (I := I) (J := J) (E := E) (S := E) (C := E)
      (f := fun c (ab : I × Bool) => fullAdderConst ab.1 ab.2 c)
      (f' := fun c (ab : J × Bool) => fullAdderConst ab.1 ab.2 c)
      (w := fun p : Bool × Bool => p.1.toNat + p.2.toNat)
      (R := fun a b c => E a.1 b.1 c.1 ∧ (a.2 = c.2 ∧ b.2 = c.2))
      (fun c c' x a b n hc h => by
        obtain ⟨h1, h2, h3⟩ := h
        rw [h2, h3]
        exact spec_fullAdderConst _ h1 hc) (hx.zip (All3.refl (l := pb.tail))) h
    refine hscan.bind ?_
    rintro ⟨ss, d⟩ ⟨ss', d'⟩ ⟨ts, y, hts, hy, hlen, e⟩
    simp only [hb1, if_true]
    refine (CSpec.gNot hc).bind fun m m' hm => ?_
    refine (CSpec.gXor hm hy).bind fun ov ov' hov => ?_
    have hzip : ps.zip pb.tail = ps.zip (pb.tail.take n) := (zip_take_len ps pb.tail).symm
    have hmin : (pb.tail.take n).length = n := by simp [htl]
    rw [hzip] at e hlen
    rw [wval_zip_add _ _ (by rw [hmin])] at e
    rw [List.length_zip, hmin, ← hn, min_self] at e hlen
    have hd : val pb.tail = val (pb.tail.take n) + 2 ^ n := by
      rw [val_take_add n pb.tail (by omega)]
      have hdrop : pb.tail.drop n = [true] := by
        have h1 : (pb.tail.drop n).length = 1 := by rw [List.length_drop, htl]; omega
        obtain ⟨t, ht⟩ := List.length_eq_one_iff.1 h1
        have : pb.getLastD false = t := by
          rw [hb0, ← List.take_append_drop n pb.tail, ht]
          rw [List.getLastD_eq_getLast?]
          simp [List.getLast?_cons]
        rw [ht, ← this, hb1]
      rw [hdrop]; simp [val]
    have hv2 : val pb = 1 + 2 * val pb.tail := by
      conv_lhs => rw [hb0]
      rfl
    have hlt' := val_lt ts
    rw [hlen] at hlt'
    have hlp := val_lt ps
    rw [← hn] at hlp
    refine CSpec.pure ⟨(!b) :: ts, _, .cons hs hts, hov, by simp [hlen], ?_, ?_⟩
    · simp only [val] at hw ⊢
      cases b <;> cases z <;> cases y <;> simp at e hw ⊢ <;> omega
    · simp only [val] at hw ⊢
      cases b <;> cases z <;> cases y <;> simp at e hw ⊢ <;> omega

theorem spec_subPAndMux {p : Nat} (hp : p % 2 = 1) {xs : List I} {xs' : List J} {ps c c' z}
    (hx : All3 E xs xs' ps) (hc : E c c' z) (hlt : p < 2 ^ ps.length)
    (hw : val ps + 2 ^ ps.length * z.toNat < 2 * p) (outlen : Nat) :
    CSpec E (fun r r' => ∃ ss, All3 E r r' ss ∧ ss.length = min outlen ps.length ∧
        val ss = (val ps + 2 ^ ps.length * z.toNat) % p % 2 ^ outlen)
      (subPAndMux p xs c outlen) (subPAndMux p xs' c' outlen) := by
  refine (spec_subP hp hx hc hlt hw).bind ?_
  rintro ⟨ss, ov⟩ ⟨ss', ov'⟩ ⟨ts, o, hts, ho, hlen, e, e'⟩
  refine (CSpec.mapM (S := E) (fun p : Bool × Bool => if o then p.2 else p.1)
    (fun _ _ _ h => CSpec.gMux ho h.1 h.2) ((hts.zip hx).take outlen)).mono fun r r' hr => ?_
  rw [← List.map_take.symm, map_zip_ite _ _ hlen] at hr
  refine ⟨_, hr, ?_, ?_⟩
  · rw [List.length_take]; cases o <;> simp [hlen]
  rw [val_take]
  congr 1
  subst e
  by_cases h : val ps + 2 ^ ps.length * z.toNat < p
  · rw [Nat.mod_eq_of_lt h]
    simp only [h, decide_true, if_true]
    cases z
    · simp
    · simp at h; omega
  · rw [Nat.mod_eq_sub_mod (by omega), Nat.mod_eq_of_lt (by omega)]
    simp only [h, decide_false, Bool.false_eq_true, if_false]
    exact e' (by omega)

theorem spec_adderModPOut {p : Nat} (hp : p % 2 = 1) {xs : List I} {xs' : List J} {ps ys ys' qs}
    (hx : All3 E xs xs' ps) (hy : All3 E ys ys' qs) (hl : ps.length = qs.length)
    (hlt : p < 2 ^ ps.length) (ha : val ps < p) (hb : val qs < p) (outlen : Nat) :
    CSpec E (fun r r' => ∃ ss, All3 E r r' ss ∧ ss.length = min outlen ps.length ∧
        val ss = (val ps + val qs) % p % 2 ^ outlen)
      (adderModPOut p xs ys outlen) (adderModPOut p xs' ys' outlen) := by
  have hne : ps ≠ [] := by rintro rfl; simp at hlt; omega
  refine (spec_binAddition' hx hy hl hne).bind ?_
  rintro ⟨ss, c⟩ ⟨ss', c'⟩ ⟨ts, y, hts, hy, hlen, e⟩
  rw [← hlen] at e hlt
  have := spec_subPAndMux hp hts hy hlt (by rw [e]; omega) outlen
  rw [e, hlen] at this
  exact this

theorem spec_composeFieldElement {p : Nat} (hp : p % 2 = 1) {xs : List I} {xs' : List J} {ps ys ys' qs}
    (hx : All3 E xs xs' ps) (hy : All3 E ys ys' qs) (hl : ps.length ≤ qs.length)
    (hlt : p < 2 ^ qs.length) (ha : val ps < p) (hb : val qs < p) :
    CSpec E (fun r r' => ∃ ss, All3 E r r' ss ∧ ss.length = qs.length ∧ val ss = (val ps + val qs) % p)
      (composeFieldElement p qs.length xs ys) (composeFieldElement p qs.length xs' ys') := by
  unfold composeFieldElement
  cases hx with
  | nil =>
    refine CSpec.pure ⟨qs, hy, rfl, ?_⟩
    simp [val, Nat.mod_eq_of_lt hb]
  | @cons x x' b xs xs' ps h hx =>
    have hX := All3.cons h hx
    rw [if_neg (by simp), if_neg (by simp)]
    refine (spec_binAddition hX hy hl (by simp)).bind ?_
    rintro ⟨ss, c⟩ ⟨ss', c'⟩ ⟨ts, y, hts, hc, hlen, e⟩
    rw [hX.len, hX.len']
    refine (spec_addZeros (hy.drop _) hc).bind ?_
    rintro ⟨ss₂, c₂⟩ ⟨ss₂', c₂'⟩ ⟨ts₂, y₂, hts₂, hc₂, hlen₂, e₂⟩
    have hlen₃ : (ts ++ ts₂).length = qs.length := by
      simp only [List.length_append, hlen, hlen₂, List.length_drop]; omega
    have e₃ : val (ts ++ ts₂) + 2 ^ (ts ++ ts₂).length * y₂.toNat = val (b :: ps) + val qs := by
      rw [val_append, hlen₃, hlen, val_take_add (b :: ps).length qs hl]
      simp only [List.length_drop] at e₂
      obtain ⟨d, hd⟩ := Nat.exists_eq_add_of_le hl
      have hd' : qs.length - (b :: ps).length = d := by omega
      rw [hd'] at e₂
      rw [hd, pow_add]
      have e₄ := congrArg (2 ^ (b :: ps).length * ·) e₂
      simp only [Nat.mul_add] at e₄
      linarith
    have := spec_subPAndMux hp (hts.append hts₂) hc₂ (by rw [hlen₃]; exact hlt) (by rw [e₃]; omega) qs.length
    rw [e₃] at this
    refine this.mono ?_
    rintro r r' ⟨us, hus, hl', e'⟩
    refine ⟨us, hus, by rw [hl', hlen₃, min_self], ?_⟩
    rw [e', Nat.mod_eq_of_lt]
    exact (Nat.mod_lt _ (by omega)).trans hlt

/-! ### Division -/

theorem spec_divLoop {n : Nat} {sub : List I → Circ I (List I × I)} {sub' : List J → Circ J (List J × J)}
    {qs : List Bool}
    (hsub : ∀ {as as' ps}, All3 E as as' ps → ps.length ≤ qs.length → ps ≠ [] →
      CSpec E (SubSpec E (val ps) qs) (sub as) (sub' as')) (hn : n ≤ qs.length) (hD : 0 < val qs)
    {xs : List I} {xs' : List J} {ps} (hx : All3 E xs xs' ps) {as : List I} {as' : List J} {bs}
    (ha : All3 E as as' bs) (hl : bs.length + ps.length = n) (hb : val bs < val qs) :
    CSpec E (fun r r' => ∃ ss, All3 E r r' ss ∧ ss.length = ps.length ∧
        val ss.reverse = (val bs * 2 ^ ps.length + val ps.reverse) / val qs)
      (divLoop n sub as xs) (divLoop n sub' as' xs') := by
  induction hx generalizing as as' bs with
  | nil =>
    refine CSpec.pure ⟨[], .nil, rfl, ?_⟩
    simp [val, Nat.div_eq_of_lt hb]
  | @cons x x' p xs xs' ps h hx ih =>
    have hs : shiftIn n x as = x :: as := by
      simp only [shiftIn]
      rw [if_neg]
      rw [ha.len]; simp at hl; omega
    have hs' : shiftIn n x' as' = x' :: as' := by
      simp only [shiftIn]
      rw [if_neg]
      rw [ha.len']; simp at hl; omega
    simp only [divLoop, hs, hs']
    have hA := All3.cons h ha
    have hlA : (p :: bs).length ≤ qs.length := by simp at hl ⊢; omega
    refine (hsub hA hlA (by simp)).bind ?_
    rintro ⟨res, c⟩ ⟨res', c'⟩ ⟨ts, y, hts, hc, hlen, e⟩
    have hlt : val (p :: bs) < 2 ^ qs.length :=
      (val_lt _).trans_le (Nat.pow_le_pow_right (by omega) hlA)
    obtain ⟨e1, e2⟩ := SubSpec.carry hlen e hlt
    refine (spec_binMultiplex hc hA hts).bind fun acc acc' hacc => ?_
    have hz : ((p :: bs).zip ts).map (fun q => if y then q.2 else q.1) =
        if y then ts.take (p :: bs).length else p :: bs := by
      rw [← zip_take_len, map_zip_ite _ _ (by rw [List.length_take, hlen]; omega)]
    rw [hz] at hacc
    have hlz : (if y then ts.take (p :: bs).length else p :: bs).length = bs.length + 1 := by
      cases y
      · simp
      · simp at hlA ⊢; omega
    have hvz : val (if y then ts.take (p :: bs).length else p :: bs) = val (p :: bs) % val qs := by
      have h2 : val (p :: bs) < 2 * val qs := by
        simp only [val]; have := Bool.toNat_lt p; omega
      by_cases hle : val qs ≤ val (p :: bs)
      · rw [Nat.mod_eq_sub_mod hle, Nat.mod_eq_of_lt (by omega)]
        rw [e1, decide_eq_true hle, if_pos rfl, val_take, e2 hle, Nat.mod_eq_of_lt]
        have := val_lt (p :: bs)
        omega
      · rw [e1, decide_eq_false hle, if_neg (by simp), Nat.mod_eq_of_lt (by omega)]
    refine (ih hacc (by rw [hlz]; simp at hl; omega) (by rw [hvz]; exact Nat.mod_lt _ hD)).bind ?_
    rintro r r' ⟨us, hus, hlu, eu⟩
    refine CSpec.pure ⟨y :: us, .cons hc hus, by simp [hlu], ?_⟩
    rw [List.reverse_cons, val_append, List.length_reverse, hlu, eu, hvz, List.reverse_cons, val_append,
      List.length_reverse]
    have hy : y.toNat = val (p :: bs) / val qs := by
      have h2 : val (p :: bs) < 2 * val qs := by
        simp only [val]; have := Bool.toNat_lt p; omega
      by_cases hle : val qs ≤ val (p :: bs)
      · rw [e1, decide_eq_true hle]
        symm
        rw [Nat.div_eq_iff hD]
        simp; omega
      · rw [e1, decide_eq_false hle, Nat.div_eq_of_lt (by omega)]; rfl
    have key : val bs * 2 ^ (p :: ps).length + (val ps.reverse + 2 ^ ps.length * val [p]) =
        (val (p :: bs) % val qs * 2 ^ ps.length + val ps.reverse) +
          2 ^ ps.length * (val (p :: bs) / val qs) * val qs := by
      have hdm := Nat.div_add_mod (val (p :: bs)) (val qs)
      have : val bs * 2 ^ (p :: ps).length + (val ps.reverse + 2 ^ ps.length * val [p]) =
          2 ^ ps.length * val (p :: bs) + val ps.reverse := by
        simp only [val, List.length_cons, pow_succ]; ring
      rw [this, ← hdm]
      simp only [Nat.mul_add]
      rw [hdm]
      ring
    rw [key, Nat.add_mul_div_right _ _ hD]
    rw [show val [y] = y.toNat by simp [val], ← hy]

theorem spec_binDiv {xs : List I} {xs' : List J} {ps ys ys' qs} (hx : All3 E xs xs' ps)
    (hy : All3 E ys ys' qs) (hl : ps.length ≤ qs.length) (hD : 0 < val qs) :
    CSpec E (fun r r' => ∃ ss, All3 E r r' ss ∧ ss.length = ps.length ∧ val ss = val ps / val qs)
      (binDiv xs ys) (binDiv xs' ys') := by
  unfold binDiv
  rw [hx.len, hx.len']
  refine (spec_divLoop (qs := qs) (fun ha hl hp => spec_binSubtractionPartial ha hy hl hp) hl hD
    hx.reverse All3.nil (by simp) hD).bind ?_
  rintro r r' ⟨ss, hs, hlen, e⟩
  refine CSpec.pure ⟨ss.reverse, hs.reverse, by simpa using hlen, ?_⟩
  rw [e]
  simp [val]

theorem spec_binDivByPublic {xs : List I} {xs' : List J} {ps} (qs : List Bool) (hx : All3 E xs xs' ps)
    (hl : ps.length ≤ qs.length) (hD : 0 < val qs) :
    CSpec E (fun r r' => ∃ ss, All3 E r r' ss ∧ ss.length = ps.length ∧ val ss = val ps / val qs)
      (binDivByPublic xs qs) (binDivByPublic xs' qs) := by
  unfold binDivByPublic
  rw [hx.len, hx.len']
  refine (spec_divLoop (qs := qs) (fun ha hl hp => spec_binSubtractionPartialByConstant qs ha hl hp) hl hD
    hx.reverse All3.nil (by simp) hD).bind ?_
  rintro r r' ⟨ss, hs, hlen, e⟩
  refine CSpec.pure ⟨ss.reverse, hs.reverse, by simpa using hlen, ?_⟩
  rw [e]
  simp [val]

theorem val_dropLast {l : List Bool} {n : Nat} (h : l.length = n + 1) (hv : val l < 2 ^ n) :
    val l.dropLast = val l := by
  rw [List.dropLast_eq_take, h, Nat.add_sub_cancel, val_take, Nat.mod_eq_of_lt hv]

theorem All3.dropLast {α β γ : Type} {R : α → β → γ → Prop} {as : List α} {bs : List β} {cs : List γ}
    (h : All3 R as bs cs) : All3 R as.dropLast bs.dropLast cs.dropLast := by
  rw [List.dropLast_eq_take, List.dropLast_eq_take, List.dropLast_eq_take, h.len, h.len']
  exact h.take _

/-- One step of restoring division, on numbers. -/
theorem div_step {D a T : Nat} {b : Nat} (k : Nat) (hD : 0 < D) (h2 : a < 2 * D)
    (hb : b = if D ≤ a then 1 else 0) :
    (a % D * 2 ^ k + T) / D + 2 ^ k * b = (a * 2 ^ k + T) / D ∧ a % D = if D ≤ a then a - D else a := by
  have hq : a / D = b := by
    rw [hb]
    split
    · rw [Nat.div_eq_iff hD]; omega
    · rw [Nat.div_eq_of_lt (by omega)]
  refine ⟨?_, ?_⟩
  · have hdm := Nat.div_add_mod a D
    have : a * 2 ^ k + T = (a % D * 2 ^ k + T) + 2 ^ k * b * D := by
      rw [← hq]
      conv_lhs => rw [← hdm]
      ring
    rw [this, Nat.add_mul_div_right _ _ hD]
  · split
    · rw [Nat.mod_eq_sub_mod (by assumption), Nat.mod_eq_of_lt (by omega)]
    · rw [Nat.mod_eq_of_lt (by omega)]

theorem spec_divSharedLoop {ys : List I} {ys' : List J} {qs : List Bool} (hy : All3 E ys ys' qs)
    (hD : 0 < val qs) (ps : List Bool) {as : List I} {as' : List J} {bs}
    (ha : All3 E as as' bs) (hl : bs.length = qs.length) (k : Nat) (hk : k + ps.length ≤ qs.length)
    (hbk : val bs < 2 ^ k) (hb : val bs < val qs) :
    CSpec E (fun r r' => ∃ ss, All3 E r r' ss ∧ ss.length = ps.length ∧
        val ss.reverse = (val bs * 2 ^ ps.length + val ps.reverse) / val qs)
      (divSharedLoop ys as ps) (divSharedLoop ys' as' ps) := by
  induction ps generalizing as as' bs k with
  | nil =>
    refine CSpec.pure ⟨[], .nil, rfl, ?_⟩
    simp [val, Nat.div_eq_of_lt hb]
  | cons p ps ih =>
    simp only [divSharedLoop]
    refine (CSpec.const p).bind fun x x' hx => ?_
    have hs : shiftIn ys.length x as = x :: as.dropLast := by
      simp only [shiftIn]
      rw [if_pos]
      rw [ha.len, hy.len, hl]
    have hs' : shiftIn ys'.length x' as' = x' :: as'.dropLast := by
      simp only [shiftIn]
      rw [if_pos]
      rw [ha.len', hy.len', hl]
    rw [hs, hs']
    simp only [List.length_cons] at hk
    obtain ⟨n, hn⟩ : ∃ n, qs.length = n + 1 := ⟨qs.length - 1, by omega⟩
    have hvd : val bs.dropLast = val bs := val_dropLast (n := n) (by omega)
      (hbk.trans_le (Nat.pow_le_pow_right (by omega) (by omega)))
    have hA := All3.cons hx ha.dropLast
    have hlA : (p :: bs.dropLast).length = qs.length := by simp; omega
    have hvA : val (p :: bs.dropLast) = p.toNat + 2 * val bs := by simp only [val, hvd]
    refine (spec_binSubtraction hA hy hlA (by simp)).bind ?_
    rintro ⟨res, c⟩ ⟨res', c'⟩ ⟨ts, y, hts, hc, hlen, e⟩
    have hlt := val_lt (p :: bs.dropLast)
    rw [hlA] at hlt
    obtain ⟨e1, e2⟩ := SubSpec.carry hlen e hlt
    simp only at hts hc
    cases hts with
    | nil => simp at hlen; omega
    | @cons r r' t res res' ts ht hts =>
      simp only [List.tail_cons]
      refine (spec_muxConst p hc ht).bind fun a0 a0' ha0 => ?_
      refine (spec_binMultiplex hc ha.dropLast hts).bind fun as₂ as₂' has₂ => ?_
      have hz : (bs.dropLast.zip ts).map (fun q => if y then q.2 else q.1) =
          if y then ts else bs.dropLast := map_zip_ite _ _ (by simp at hlen ⊢; omega)
      rw [hz] at has₂
      have hN : All3 E (a0 :: as₂) (a0' :: as₂') (if y then t :: ts else p :: bs.dropLast) := by
        cases y
        · exact .cons ha0 has₂
        · exact .cons ha0 has₂
      have hlN : (if y then t :: ts else p :: bs.dropLast).length = qs.length := by
        cases y
        · simpa using hlA
        · simpa using hlen
      have h2 : p.toNat + 2 * val bs < 2 * val qs := by
        have := Bool.toNat_lt p; omega
      rw [hvA] at e1 e2
      obtain ⟨d1, d2⟩ := div_step (b := y.toNat) (T := val ps.reverse) ps.length hD h2 (by
        rw [e1]; by_cases hle : val qs ≤ p.toNat + 2 * val bs <;> simp [hle])
      have hvN : val (if y then t :: ts else p :: bs.dropLast) = (p.toNat + 2 * val bs) % val qs := by
        rw [d2]
        by_cases hle : val qs ≤ p.toNat + 2 * val bs
        · rw [e1, decide_eq_true hle, if_pos rfl, if_pos hle, e2 hle]
        · rw [e1, decide_eq_false hle, if_neg (by simp), if_neg hle, hvA]
      refine (ih hN hlN (k + 1) (by omega) ?_ (by rw [hvN]; exact Nat.mod_lt _ hD)).bind ?_
      · rw [hvN]
        refine (Nat.mod_le _ _).trans_lt ?_
        rw [pow_succ]; have := Bool.toNat_lt p; omega
      rintro r₂ r₂' ⟨us, hus, hlu, eu⟩
      refine CSpec.pure ⟨y :: us, .cons hc hus, by simp [hlu], ?_⟩
      rw [List.reverse_cons, val_append, List.length_reverse, hlu, eu, hvN, List.reverse_cons, val_append,
        List.length_reverse, show val [y] = y.toNat by simp [val], d1,
        show val [p] = p.toNat by simp [val]]
      congr 1
      simp only [List.length_cons, pow_succ]
      ring

theorem spec_binDivByShared (ps : List Bool) {ys : List I} {ys' : List J} {qs} (hy : All3 E ys ys' qs)
    (hp : ps ≠ []) (hl : ps.length ≤ qs.length) (hD : 0 < val qs) :
    CSpec E (fun r r' => ∃ ss, All3 E r r' ss ∧ ss.length = ps.length ∧ val ss = val ps / val qs)
      (binDivByShared ps ys) (binDivByShared ps ys') := by
  have hq0 : qs.length ≠ 0 := by
    intro h
    rw [List.eq_nil_of_length_eq_zero h] at hD
    simp [val] at hD
  unfold binDivByShared
  rw [if_neg (by rw [hy.len]; exact hq0), if_neg (by rw [hy.len']; exact hq0), hy.len, hy.len']
  obtain ⟨d, ds, hr⟩ := List.exists_cons_of_ne_nil (l := ps.reverse) (by simpa using hp)
  rw [hr]
  simp only
  set acc := d :: List.replicate (qs.length - 1) false with hacc
  have hla : acc.length = qs.length := by simp only [hacc, List.length_cons, List.length_replicate]; omega
  have hva : val acc = d.toNat := by simp [hacc, val, val_replicate_false]
  refine (spec_binSubtractionPartialFromConstant acc hy hla.le (by simp [hacc])).bind ?_
  rintro ⟨res, c⟩ ⟨res', c'⟩ ⟨ts, y, hts, hc, hlen, e⟩
  have hlt := val_lt acc
  rw [hla] at hlt
  obtain ⟨e1, e2⟩ := SubSpec.carry hlen e hlt
  refine (spec_binMultiplexConst acc hc hts).bind fun as as' has => ?_
  rw [map_zip_ite _ _ (by omega)] at has
  have hps : ps = ds.reverse ++ [d] := by
    rw [← List.reverse_reverse ps, hr, List.reverse_cons]
  have hdl : ds.length + 1 = ps.length := by rw [hps]; simp
  rw [hva] at e1 e2
  have h2 : d.toNat < 2 * val qs := by have := Bool.toNat_lt d; omega
  obtain ⟨d1, d2⟩ := div_step (b := y.toNat) (T := val ds.reverse) ds.length hD h2 (by
    rw [e1]; by_cases hle : val qs ≤ d.toNat <;> simp [hle])
  have hvN : val (if y then ts else acc) = d.toNat % val qs := by
    rw [d2]
    by_cases hle : val qs ≤ d.toNat
    · rw [e1, decide_eq_true hle, if_pos rfl, if_pos hle, e2 hle]
    · rw [e1, decide_eq_false hle, if_neg (by simp), if_neg hle, hva]
  refine (spec_divSharedLoop hy hD ds has (by cases y <;> simp [hla, hlen]) 1 (by omega) ?_
    (by rw [hvN]; exact Nat.mod_lt _ hD)).bind ?_
  · rw [hvN]
    have := Bool.toNat_lt d
    have := Nat.mod_le d.toNat (val qs)
    omega
  rintro r r' ⟨us, hus, hlu, eu⟩
  refine CSpec.pure ⟨(y :: us).reverse, (All3.cons hc hus).reverse, by simp [hlu, hdl], ?_⟩
  rw [List.reverse_cons, val_append, List.length_reverse, hlu, eu, hvN,
    show val [y] = y.toNat by simp [val], d1, hps, val_append, List.length_reverse,
    show val [d] = d.toNat by simp [val]]
  congr 1
  ring

/-! ### Multiplication -/

theorem spec_binMulLoop {zero : I} {zero' : J} (hz : E zero zero' false) {xs : List I} {xs' : List J} {ps}
    (hx : All3 E xs xs' ps) (rs : List Bool) (i : Nat) (hi : 0 < i) {as : List I} {as' : List J} {bs}
    (ha : All3 E as as' bs) (hl : bs.length = ps.length + i) :
    CSpec E (fun r r' => ∃ ss, All3 E r r' ss ∧ ss.length = ps.length + i + rs.length ∧
        val ss = val bs + 2 ^ i * (val ps * val rs))
      (binMulLoop zero xs i as rs) (binMulLoop zero' xs' i as' rs) := by
  induction rs generalizing i as as' bs with
  | nil => exact CSpec.pure ⟨bs, ha, by simpa using hl, by simp [val]⟩
  | cons r rs ih =>
    simp only [binMulLoop]
    have hm : All3 E (if r then xs else List.replicate xs.length zero)
        (if r then xs' else List.replicate xs'.length zero')
        (if r then ps else List.replicate ps.length false) := by
      cases r
      · simp only [Bool.false_eq_true, if_false, hx.len, hx.len']
        exact All3.replicate hz _
      · exact hx
    have hm2 := (All3.replicate hz i).append hm
    have hlm : (if r then ps else List.replicate ps.length false).length = ps.length := by
      cases r <;> simp
    have hvm : val (if r then ps else List.replicate ps.length false) = val ps * r.toNat := by
      cases r <;> simp [val_replicate_false]
    refine (spec_binAddition' ha hm2 (by simp only [List.length_append, List.length_replicate, hlm]; omega)
      (by rintro rfl; simp at hl; omega)).bind ?_
    rintro ⟨s, c⟩ ⟨s', c'⟩ ⟨ts, y, hts, hc, hlen, e⟩
    refine (ih (i + 1) (by omega) (hts.append (.cons hc .nil)) (by simp [hlen, hl]; omega)).mono ?_
    rintro r₂ r₂' ⟨us, hus, hlu, eu⟩
    refine ⟨us, hus, by rw [hlu, List.length_cons]; omega, ?_⟩
    rw [eu, val_append, hlen, show val [y] = y.toNat by simp [val], e, val_append, val_replicate_false,
      List.length_replicate, hvm]
    simp only [val, pow_succ]
    ring

theorem spec_binMulWithPublic {xs : List I} {xs' : List J} {ps} (hx : All3 E xs xs' ps) (rs : List Bool)
    (hr : rs ≠ []) :
    CSpec E (fun r r' => ∃ ss, All3 E r r' ss ∧ ss.length = ps.length + rs.length ∧
        val ss = val ps * val rs)
      (binMulWithPublic xs rs) (binMulWithPublic xs' rs) := by
  refine CSpec.constZero.bind fun zero zero' hz => ?_
  cases rs with
  | nil => exact absurd rfl hr
  | cons r rs =>
    simp only
    have hm : All3 E (if r then xs else List.replicate xs.length zero)
        (if r then xs' else List.replicate xs'.length zero')
        (if r then ps else List.replicate ps.length false) := by
      cases r
      · simp only [Bool.false_eq_true, if_false, hx.len, hx.len']
        exact All3.replicate hz _
      · exact hx
    have hlm : (if r then ps else List.replicate ps.length false).length = ps.length := by
      cases r <;> simp
    have hvm : val (if r then ps else List.replicate ps.length false) = val ps * r.toNat := by
      cases r <;> simp [val_replicate_false]
    refine (spec_binMulLoop hz hx rs 1 (by omega) (hm.append (.cons hz .nil)) (by simp [hlm])).mono ?_
    rintro r₂ r₂' ⟨us, hus, hlu, eu⟩
    refine ⟨us, hus, by rw [hlu, List.length_cons]; omega, ?_⟩
    rw [eu, val_append, hvm]
    simp only [val, Bool.toNat_false]
    ring

end Verif.Yao
