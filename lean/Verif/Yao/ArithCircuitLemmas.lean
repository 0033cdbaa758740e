import Verif.Yao.ArithCircuits
import Verif.Yao.ConvLemmas

/-!
# Rules for the circuits on additively shared inputs
-/

namespace Verif.Yao

open Verif.Yao.Circ

variable {I J : Type} {E : I → J → Bool → Prop}

/-! ### Loops over chunks -/

theorem all3_chunksOf {τ : Type} {n : Nat} (hn : 0 < n) {ts : List τ} {f : τ → List Bool}
    (hl : ∀ t ∈ ts, (f t).length = n) {xs : List I} {xs' : List J} (h : All3 E xs xs' (ts.flatMap f)) :
    All3 (All3 E) (chunks n xs) (chunks n xs') (ts.map f) :=
  all3_chunks hn (by simpa using hl) (by rw [← List.flatMap_def]; exact h)

theorem all3_memZip {α β γ : Type} {R : α → β → γ → Prop} {as : List α} {bs : List β} {cs : List γ}
    (h : All3 R as bs cs) : All3 (fun a b c => R a b c ∧ c ∈ cs) as bs cs := by
  induction h with
  | nil => exact .nil
  | cons h _ ih =>
    exact .cons ⟨h, by simp⟩ (ih.mono fun _ _ _ h => ⟨h.1, List.mem_cons_of_mem _ h.2⟩)

section Over

variable {τ : Type} {n m : Nat} {ts : List τ} {fa fb fc out : τ → List Bool}

theorem spec_overChunks (hn : 0 < n) (hm : 0 < m)
    {f : List I → List I → List I → Circ I (List I)} {f' : List J → List J → List J → Circ J (List J)}
    (ha : ∀ t ∈ ts, (fa t).length = n) (hb : ∀ t ∈ ts, (fb t).length = n) (hc : ∀ t ∈ ts, (fc t).length = m)
    (hf : ∀ t ∈ ts, ∀ {xs xs' ys ys' zs zs'}, All3 E xs xs' (fa t) → All3 E ys ys' (fb t) →
      All3 E zs zs' (fc t) → CSpec E (fun r r' => All3 E r r' (out t)) (f xs ys zs) (f' xs' ys' zs'))
    {a a' b b' c c'} (h1 : All3 E a a' (ts.flatMap fa)) (h2 : All3 E b b' (ts.flatMap fb))
    (h3 : All3 E c c' (ts.flatMap fc)) :
    CSpec E (fun r r' => All3 E r r' (ts.flatMap out)) (overChunks n m f a b c) (overChunks n m f' a' b' c') := by
  have h := (all3_chunksOf hn ha h1).zip ((all3_chunksOf hn hb h2).zip (all3_chunksOf hm hc h3))
  have e : (ts.map fa).zip ((ts.map fb).zip (ts.map fc)) = ts.map fun t => (fa t, fb t, fc t) := by
    rw [List.zip_map', List.zip_map']
  rw [e] at h
  unfold overChunks
  rw [if_neg (by omega), if_neg (by omega)]
  refine (CSpec.mapM (S := All3 E) out (fun x y t h => hf t h.2 h.1.1 h.1.2.1 h.1.2.2)
    (all3_memZip h.of_map)).bind fun r r' hr => ?_
  refine CSpec.pure ?_
  rw [List.flatMap_def]
  exact hr.flatten

theorem spec_overChunksPublic {fv : τ → List Bool} (hn : 0 < n)
    {f : List I → List I → List Bool → List I → Circ I (List I)}
    {f' : List J → List J → List Bool → List J → Circ J (List J)}
    (ha : ∀ t ∈ ts, (fa t).length = n) (hb : ∀ t ∈ ts, (fb t).length = n) (hv : ∀ t ∈ ts, (fv t).length = n)
    (hc : ∀ t ∈ ts, (fc t).length = n)
    (hf : ∀ t ∈ ts, ∀ {xs xs' ys ys' zs zs'}, All3 E xs xs' (fa t) → All3 E ys ys' (fb t) →
      All3 E zs zs' (fc t) →
      CSpec E (fun r r' => All3 E r r' (out t)) (f xs ys (fv t) zs) (f' xs' ys' (fv t) zs'))
    {a a' b b' c c'} (h1 : All3 E a a' (ts.flatMap fa)) (h2 : All3 E b b' (ts.flatMap fb))
    (h3 : All3 E c c' (ts.flatMap fc)) :
    CSpec E (fun r r' => All3 E r r' (ts.flatMap out)) (overChunksPublic n f a b (ts.flatMap fv) c)
      (overChunksPublic n f' a' b' (ts.flatMap fv) c') := by
  have hV : All3 (fun a b c : Bool => a = c ∧ b = c) (ts.flatMap fv) (ts.flatMap fv) (ts.flatMap fv) := All3.refl
  have hV := all3_chunksOf hn hv hV
  have hV : All3 (fun a b c : List Bool => a = c ∧ b = c) (chunks n (ts.flatMap fv)) (chunks n (ts.flatMap fv))
      (ts.map fv) := by
    refine hV.mono fun a b c h => ?_
    clear hV
    induction h with
    | nil => exact ⟨rfl, rfl⟩
    | cons h _ ih => exact ⟨by rw [h.1, ih.1], by rw [h.2, ih.2]⟩
  have h := (all3_chunksOf hn ha h1).zip ((all3_chunksOf hn hb h2).zip (hV.zip (all3_chunksOf hn hc h3)))
  have e : (ts.map fa).zip ((ts.map fb).zip ((ts.map fv).zip (ts.map fc))) =
      ts.map fun t => (fa t, fb t, fv t, fc t) := by
    rw [List.zip_map', List.zip_map', List.zip_map']
  rw [e] at h
  unfold overChunksPublic
  rw [if_neg (by omega), if_neg (by omega)]
  refine (CSpec.mapM (S := All3 E) out (fun x y t h => by
    obtain ⟨⟨h1, h2, ⟨h3, h3'⟩, h4⟩, ht⟩ := h
    rw [h3, h3']
    exact hf t ht h1 h2 h4) (all3_memZip h.of_map)).bind fun r r' hr => ?_
  refine CSpec.pure ?_
  rw [List.flatMap_def]
  exact hr.flatten

theorem spec_overHalves {fx1 fx2 fy1 fy2 : τ → List Bool} (hn : 0 < n)
    {f : List I → List I → List I → List I → List I → Circ I (List I)}
    {f' : List J → List J → List J → List J → List J → Circ J (List J)}
    (hx1 : ∀ t ∈ ts, (fx1 t).length = n) (hx2 : ∀ t ∈ ts, (fx2 t).length = n)
    (hy1 : ∀ t ∈ ts, (fy1 t).length = n) (hy2 : ∀ t ∈ ts, (fy2 t).length = n) (hc : ∀ t ∈ ts, (fc t).length = n)
    (hf : ∀ t ∈ ts, ∀ {xs xs' ys ys' us us' vs vs' zs zs'}, All3 E xs xs' (fx1 t) → All3 E ys ys' (fx2 t) →
      All3 E us us' (fy1 t) → All3 E vs vs' (fy2 t) → All3 E zs zs' (fc t) →
      CSpec E (fun r r' => All3 E r r' (out t)) (f xs ys us vs zs) (f' xs' ys' us' vs' zs'))
    {a a' b b' c c'} (h1 : All3 E a a' (ts.flatMap fx1 ++ ts.flatMap fy1))
    (h2 : All3 E b b' (ts.flatMap fx2 ++ ts.flatMap fy2)) (h3 : All3 E c c' (ts.flatMap fc)) :
    CSpec E (fun r r' => All3 E r r' (ts.flatMap out)) (overHalves n f a b c) (overHalves n f' a' b' c') := by
  have hlen : ∀ {g : τ → List Bool}, (∀ t ∈ ts, (g t).length = n) → (ts.flatMap g).length = ts.length * n := by
    intro g hg
    clear h1 h2 h3 hf hx1 hx2 hy1 hy2 hc
    induction ts with
    | nil => simp
    | cons t ts ih =>
      rw [List.flatMap_cons, List.length_append, hg t (by simp), ih fun t ht => hg t (by simp [ht]),
        List.length_cons]
      ring
  have l1 := hlen hx1
  have l2 := hlen hx2
  have l3 := hlen hy1
  have l4 := hlen hy2
  have la : a.length / 2 = ts.length * n := by rw [h1.len, List.length_append, l1, l3]; omega
  have la' : a'.length / 2 = ts.length * n := by rw [h1.len', List.length_append, l1, l3]; omega
  have lb : b.length = ts.length * n + ts.length * n := by rw [h2.len, List.length_append, l2, l4]
  have lb' : b'.length = ts.length * n + ts.length * n := by rw [h2.len', List.length_append, l2, l4]
  have a1 := h1.take (ts.length * n)
  have a2 := h1.drop (ts.length * n)
  have b1 := h2.take (ts.length * n)
  have b2 := h2.drop (ts.length * n)
  rw [← l1, List.take_left] at a1
  rw [← l1, List.drop_left] at a2
  rw [← l2, List.take_left] at b1
  rw [← l2, List.drop_left] at b2
  rw [l1] at a1 a2
  rw [l2] at b1 b2
  unfold overHalves
  rw [if_neg (by omega), if_neg (by omega)]
  simp only [la, la']
  rw [if_neg (by omega), if_neg (by omega)]
  have h := (all3_chunksOf hn hx1 a1).zip ((all3_chunksOf hn hx2 b1).zip ((all3_chunksOf hn hy1 a2).zip
    ((all3_chunksOf hn hy2 b2).zip (all3_chunksOf hn hc h3))))
  have e : (ts.map fx1).zip ((ts.map fx2).zip ((ts.map fy1).zip ((ts.map fy2).zip (ts.map fc)))) =
      ts.map fun t => (fx1 t, fx2 t, fy1 t, fy2 t, fc t) := by
    rw [List.zip_map', List.zip_map', List.zip_map', List.zip_map']
  rw [e] at h
  refine (CSpec.mapM (S := All3 E) out (fun x y t h => hf t h.2 h.1.1 h.1.2.1 h.1.2.2.1 h.1.2.2.2.1 h.1.2.2.2.2)
    (all3_memZip h.of_map)).bind fun r r' hr => ?_
  refine CSpec.pure ?_
  rw [List.flatMap_def]
  exact hr.flatten

end Over

/-! ### Addition of the output mask in a ring -/

theorem spec_composeShort {xs xs' ps ys ys' qs} (hx : All3 E xs xs' ps) (hy : All3 E ys ys' qs)
    (hl : ps.length < qs.length) (hp : ps ≠ []) :
    CSpec E (fun r r' => ∃ ss, All3 E r r' ss ∧ ss.length = qs.length ∧
        val ss = (val ps + val qs) % 2 ^ qs.length)
      (composeShort xs ys) (composeShort xs' ys') := by
  have hq : qs ≠ [] := by rintro rfl; simp at hl
  have hy0 : ys ≠ [] := by rintro rfl; exact hq (List.eq_nil_of_length_eq_zero hy.len.symm)
  have hy0' : ys' ≠ [] := by rintro rfl; exact hq (List.eq_nil_of_length_eq_zero hy.len'.symm)
  unfold composeShort
  rw [dif_neg hy0, dif_neg hy0']
  refine (spec_binAddition hx hy hl.le hp).bind ?_
  rintro ⟨ss, c⟩ ⟨ss', c'⟩ ⟨ts, y, hts, hc, hlen, e⟩
  rw [hx.len, hx.len', hy.len, hy.len']
  refine (spec_addZeros ((hy.take (qs.length - 1)).drop ps.length) hc).bind ?_
  rintro ⟨ss₂, c₂⟩ ⟨ss₂', c₂'⟩ ⟨ts₂, y₂, hts₂, hc₂, hlen₂, e₂⟩
  refine (CSpec.gXor (hy.getLast hy0 hy0' hq) hc₂).bind fun l l' hl' => ?_
  obtain ⟨m, hm⟩ : ∃ m, qs.length = m + 1 := ⟨qs.length - 1, by omega⟩
  have hml : ps.length ≤ m := by omega
  simp only [hm, Nat.add_sub_cancel, List.length_drop, List.length_take, Nat.min_eq_left (Nat.le_succ m)] at hlen₂ e₂ hts₂ ⊢
  have hlen₃ : (ts ++ ts₂).length = m := by simp [hlen, hlen₂]; omega
  refine CSpec.pure ⟨(ts ++ ts₂) ++ [_], (hts.append hts₂).append (.cons hl' .nil), by simp [hlen, hlen₂]; omega, ?_⟩
  have hq₂ : val qs = val (qs.take m) + 2 ^ m * (qs.getLast hq).toNat := by
    conv_lhs => rw [← List.dropLast_append_getLast hq, val_append]
    rw [List.dropLast_eq_take, hm]
    simp [hm, val]
  have hq₃ := val_take_add ps.length (qs.take m) (by simp; omega)
  rw [List.take_take, Nat.min_eq_left hml] at hq₃
  obtain ⟨k, rfl⟩ := Nat.exists_eq_add_of_le hml
  refine val_snoc_mod (c := y₂) (n := ps.length + k) hlen₃ (qs.getLast hq).toNat
    (P := val ps + val (qs.take (ps.length + k))) ?_ ?_ ?_
  · rw [val_append, hlen, hq₃, pow_add]
    have : ps.length + k - ps.length = k := by omega
    rw [this] at e₂
    have e₄ := congrArg (2 ^ ps.length * ·) e₂
    simp only [Nat.mul_add] at e₄
    linarith
  · rw [hq₂]; ring
  · generalize qs.getLast _ = a
    cases a <;> cases y₂ <;> rfl

theorem spec_composeQuotient {xs xs' ps ys ys' qs} (hx : All3 E xs xs' ps) (hy : All3 E ys ys' qs)
    (hl : ps.length = qs.length) (hp : ps ≠ []) :
    CSpec E (fun r r' => ∃ ss, All3 E r r' ss ∧ ss.length = qs.length ∧
        val ss = (val ps + val qs) % 2 ^ qs.length)
      (composeQuotient xs ys) (composeQuotient xs' ys') := by
  unfold composeQuotient
  refine (spec_binAddition' hx hy hl hp).bind ?_
  rintro ⟨ss, c⟩ ⟨ss', c'⟩ ⟨ts, y, hts, hc, hlen, e⟩
  rw [hx.len, hx.len', hy.len, hy.len']
  refine (spec_addZeros ((hy.take (qs.length - 1)).drop ps.length) hc).bind ?_
  rintro ⟨ss₂, c₂⟩ ⟨ss₂', c₂'⟩ ⟨ts₂, y₂, hts₂, hc₂, hlen₂, e₂⟩
  have : ts₂ = [] := List.eq_nil_of_length_eq_zero (by rw [hlen₂]; simp; omega)
  subst this
  refine CSpec.pure ⟨ts ++ [], hts.append hts₂, by simp [hlen, hl], ?_⟩
  rw [List.append_nil, ← e, ← hl, Nat.add_mul_mod_self_left, Nat.mod_eq_of_lt]
  have := val_lt ts
  rwa [hlen] at this

theorem spec_composeChunk {xs xs' ps ys ys' qs} (hx : All3 E xs xs' ps) (hy : All3 E ys ys' qs)
    (hl : ps.length ≤ qs.length) (hp : ps ≠ []) :
    CSpec E (fun r r' => ∃ ss, All3 E r r' ss ∧ ss.length = qs.length ∧
        val ss = (val ps + val qs) % 2 ^ qs.length)
      (composeChunk xs ys) (composeChunk xs' ys') := by
  have hp1 : 0 < ps.length := List.length_pos_iff.2 hp
  have hq : qs ≠ [] := by rintro rfl; simp at hl; exact hp hl
  have hy0 : ys ≠ [] := by rintro rfl; exact hq (List.eq_nil_of_length_eq_zero hy.len.symm)
  have hy0' : ys' ≠ [] := by rintro rfl; exact hq (List.eq_nil_of_length_eq_zero hy.len'.symm)
  have hx0 : xs ≠ [] := by rintro rfl; exact hp (List.eq_nil_of_length_eq_zero hx.len.symm)
  have hx0' : xs' ≠ [] := by rintro rfl; exact hp (List.eq_nil_of_length_eq_zero hx.len'.symm)
  unfold composeChunk
  rw [dif_neg (by simp [hx0, hy0]), dif_neg (by simp [hx0', hy0'])]
  simp only [hy.len, hy.len']
  by_cases h1 : qs.length = 1
  · rw [if_pos h1, if_pos h1]
    have hpl : ps.length = 1 := by omega
    refine (spec_binAddition' (hx.take 1) hy (by simp; omega) (by simp [hp])).bind ?_
    rintro ⟨ss, c⟩ ⟨ss', c'⟩ ⟨ts, y, hts, hc, hlen, e⟩
    have hlt : (ps.take 1).length = 1 := by simp; omega
    refine CSpec.pure ⟨ts, hts, by omega, ?_⟩
    rw [hlt] at hlen e
    rw [List.take_of_length_le (by omega)] at e
    rw [h1, ← e, Nat.add_mul_mod_self_left, Nat.mod_eq_of_lt]
    have := val_lt ts
    rwa [hlen] at this
  rw [if_neg h1, if_neg h1]
  obtain ⟨m, hm⟩ : ∃ m, qs.length = m + 1 := ⟨qs.length - 1, by omega⟩
  have hm0 : m ≠ 0 := by omega
  simp only [hm, Nat.add_sub_cancel]
  have hpt : ps.take m ≠ [] := by simp [hp, hm0]
  refine (spec_binAddition (hx.take m) hy (by simp; omega) hpt).bind ?_
  rintro ⟨ss, c⟩ ⟨ss', c'⟩ ⟨ts, y, hts, hc, hlen, e⟩
  rw [hx.len, hx.len']
  refine (spec_addZeros ((hy.take m).drop ps.length) hc).bind ?_
  rintro ⟨ss₂, c₂⟩ ⟨ss₂', c₂'⟩ ⟨ts₂, y₂, hts₂, hc₂, hlen₂, e₂⟩
  have hq₂ : val qs = val (qs.take m) + 2 ^ m * (qs.getLast hq).toNat := by
    conv_lhs => rw [← List.dropLast_append_getLast hq, val_append]
    rw [List.dropLast_eq_take, hm]
    simp [hm, val]
  unfold composeLast
  rw [hx.len, hx.len', hy.len, hy.len']
  by_cases hpq : ps.length = qs.length
  · rw [if_pos hpq, if_pos hpq]
    have hpm : ps.length = m + 1 := by omega
    have hp₂ : val ps = val (ps.take m) + 2 ^ m * (ps.getLast hp).toNat := by
      conv_lhs => rw [← List.dropLast_append_getLast hp, val_append]
      rw [List.dropLast_eq_take, hpm]
      simp [hpm, val]
    have : ts₂ = [] := List.eq_nil_of_length_eq_zero (by rw [hlen₂]; simp; omega)
    subst this
    have hyy : y₂ = y := by
      have : (List.drop ps.length (List.take m qs)) = [] := by simp; omega
      rw [this] at e₂
      simp [val] at e₂
      cases y <;> cases y₂ <;> simp at e₂ ⊢
    subst hyy
    have hlt : (ps.take m).length = m := by simp; omega
    rw [hlt] at hlen e
    have hl' := CSpec.gXor (E := E) (hx.getLast hx0 hx0' hp) (hy.getLast hy0 hy0' hq)
    refine (hl'.bind fun z z' hz => CSpec.gXor hz hc₂).bind fun l l' hll => ?_
    refine CSpec.pure ⟨(ts ++ []) ++ [_], (hts.append hts₂).append (.cons hll .nil), by simp [hlen], ?_⟩
    rw [List.append_nil]
    refine val_snoc_mod (c := y₂) (n := m) hlen ((ps.getLast hp).toNat + (qs.getLast hq).toNat) e ?_ ?_
    · rw [hp₂, hq₂]; ring
    · generalize ps.getLast _ = a
      generalize qs.getLast _ = b
      cases a <;> cases b <;> cases y₂ <;> rfl
  · rw [if_neg hpq, if_neg hpq]
    have hml : ps.length ≤ m := by omega
    have hlt : (ps.take m).length = ps.length := by simp; omega
    rw [hlt] at hlen e
    rw [List.take_of_length_le hml] at e
    simp only [List.length_drop, List.length_take, hm, Nat.min_eq_left (Nat.le_succ m)] at hlen₂ e₂
    refine (CSpec.gXor (hy.getLast hy0 hy0' hq) hc₂).bind fun l l' hl' => ?_
    have hlen₃ : (ts ++ ts₂).length = m := by simp [hlen, hlen₂]; omega
    refine CSpec.pure ⟨(ts ++ ts₂) ++ [_], (hts.append hts₂).append (.cons hl' .nil),
      by simp [hlen, hlen₂]; omega, ?_⟩
    have hq₃ := val_take_add ps.length (qs.take m) (by simp; omega)
    rw [List.take_take, Nat.min_eq_left hml] at hq₃
    obtain ⟨k, rfl⟩ := Nat.exists_eq_add_of_le hml
    refine val_snoc_mod (c := y₂) (n := ps.length + k) hlen₃ (qs.getLast hq).toNat
      (P := val ps + val (qs.take (ps.length + k))) ?_ ?_ ?_
    · rw [val_append, hlen, hq₃, pow_add]
      have : ps.length + k - ps.length = k := by omega
      rw [this] at e₂
      have e₄ := congrArg (2 ^ ps.length * ·) e₂
      simp only [Nat.mul_add] at e₄
      linarith
    · rw [hq₂]; ring
    · generalize qs.getLast _ = a
      cases a <;> cases y₂ <;> rfl

/-! ### Elements on wires -/

section Typed

variable {p : Nat} [NeZero p] {k l : Nat}

theorem modBits_pos' (p : Nat) [NeZero p] : 0 < modBits p := Nat.size_pos.2 (NeZero.pos p)

theorem ringBits_ne_nil (hk : 0 < k) (x : BitVec k) : ringBits x ≠ [] := by
  intro e
  have := length_ringBits x
  rw [e] at this
  simp at this
  omega

theorem fieldBits_ne_nil (x : ZMod p) : fieldBits x ≠ [] := by
  intro e
  have := length_fieldBits x
  rw [e] at this
  have := modBits_pos' p
  simp at *
  omega

theorem spec_addRing (hk : 0 < k) {u v : BitVec k} {xs ys : List I} {xs' ys' : List J}
    (hx : All3 E xs xs' (ringBits u)) (hy : All3 E ys ys' (ringBits v)) :
    CSpec E (fun r r' => All3 E r r' (ringBits (u + v))) (binAdditionNoCarry xs ys)
      (binAdditionNoCarry xs' ys') := by
  refine (spec_binAdditionNoCarry hx hy (by rw [length_ringBits, length_ringBits]) (ringBits_ne_nil hk u)).mono ?_
  rintro r r' ⟨ss, h, hl, hv⟩
  rw [ringBits_eq (x := u + v) (bs := ss)] at h
  · exact h
  · rw [hl, length_ringBits]
  · rw [hv, val_ringBits, val_ringBits, length_ringBits, BitVec.toNat_add]

/-- The sum of wires and a ring element. -/
theorem ringBits_sum {ss ps : List Bool} {c : BitVec k} (hl : ss.length = (ringBits c).length)
    (hv : val ss = (val ps + val (ringBits c)) % 2 ^ (ringBits c).length) :
    ss = ringBits (BitVec.ofNat k (val ps) + c) := by
  rw [length_ringBits] at hl hv
  refine ringBits_eq hl ?_
  rw [hv, val_ringBits, BitVec.toNat_add, BitVec.toNat_ofNat, Nat.mod_add_mod]

theorem spec_composeShortRing {ps : List Bool} {c : BitVec k} {xs ys : List I} {xs' ys' : List J}
    (hx : All3 E xs xs' ps) (hy : All3 E ys ys' (ringBits c)) (hl : ps.length < k) (hp : ps ≠ []) :
    CSpec E (fun r r' => All3 E r r' (ringBits (BitVec.ofNat k (val ps) + c))) (composeShort xs ys)
      (composeShort xs' ys') := by
  refine (spec_composeShort hx hy (by rw [length_ringBits]; exact hl) hp).mono ?_
  rintro r r' ⟨ss, h, hl, hv⟩
  rwa [ringBits_sum hl hv] at h

theorem spec_composeQuotientRing {ps : List Bool} {c : BitVec k} {xs ys : List I} {xs' ys' : List J}
    (hx : All3 E xs xs' ps) (hy : All3 E ys ys' (ringBits c)) (hl : ps.length = k) (hp : ps ≠ []) :
    CSpec E (fun r r' => All3 E r r' (ringBits (BitVec.ofNat k (val ps) + c))) (composeQuotient xs ys)
      (composeQuotient xs' ys') := by
  refine (spec_composeQuotient hx hy (by rw [length_ringBits]; exact hl) hp).mono ?_
  rintro r r' ⟨ss, h, hl, hv⟩
  rwa [ringBits_sum hl hv] at h

theorem spec_composeChunkRing {ps : List Bool} {c : BitVec k} {xs ys : List I} {xs' ys' : List J}
    (hx : All3 E xs xs' ps) (hy : All3 E ys ys' (ringBits c)) (hl : ps.length ≤ k) (hp : ps ≠ []) :
    CSpec E (fun r r' => All3 E r r' (ringBits (BitVec.ofNat k (val ps) + c))) (composeChunk xs ys)
      (composeChunk xs' ys') := by
  refine (spec_composeChunk hx hy (by rw [length_ringBits]; exact hl) hp).mono ?_
  rintro r r' ⟨ss, h, hl, hv⟩
  rwa [ringBits_sum hl hv] at h

theorem spec_composeField (ho : p % 2 = 1) {ps : List Bool} {c : ZMod p} {xs ys : List I} {xs' ys' : List J}
    (hx : All3 E xs xs' ps) (hy : All3 E ys ys' (fieldBits c)) (hl : ps.length ≤ modBits p) (hp : val ps < p) :
    CSpec E (fun r r' => All3 E r r' (fieldBits ((val ps : ZMod p) + c))) (composeFieldElement p (modBits p) xs ys)
      (composeFieldElement p (modBits p) xs' ys') := by
  have e := length_fieldBits c
  have := spec_composeFieldElement ho hx hy (by rw [e]; exact hl) (by rw [e]; exact lt_two_pow_modBits' p) hp
    (by rw [val_fieldBits]; exact ZMod.val_lt c)
  rw [e] at this
  refine this.mono ?_
  rintro r r' ⟨ss, h, hl, hv⟩
  rwa [fieldBits_eq (x := (val ps : ZMod p) + c) hl] at h
  rw [hv, val_fieldBits, ZMod.val_add, ZMod.val_natCast, Nat.mod_add_mod]

/-- The low bits of a sum of field elements. -/
theorem spec_addField (ho : p % 2 = 1) {u v : ZMod p} {xs ys : List I} {xs' ys' : List J}
    (hx : All3 E xs xs' (fieldBits u)) (hy : All3 E ys ys' (fieldBits v)) {n : Nat} (hn : n ≤ modBits p) :
    CSpec E (fun r r' => ∃ ss, All3 E r r' ss ∧ ss.length = n ∧ val ss = (u + v).val % 2 ^ n)
      (adderModPOut p xs ys n) (adderModPOut p xs' ys' n) := by
  refine (spec_adderModPOut ho hx hy (by rw [length_fieldBits, length_fieldBits])
    (by rw [length_fieldBits]; exact lt_two_pow_modBits' p) (by rw [val_fieldBits]; exact ZMod.val_lt u)
    (by rw [val_fieldBits]; exact ZMod.val_lt v) n).mono ?_
  rintro r r' ⟨ss, h, hl, hv⟩
  refine ⟨ss, h, by rw [hl, length_fieldBits]; omega, ?_⟩
  rw [hv, val_fieldBits, val_fieldBits, ZMod.val_add]

/-! ### Casts -/

theorem spec_fieldToRing (ho : p % 2 = 1) (hk : 0 < k) (hkp : k ≤ modBits p) {u v : ZMod p} {c : BitVec k}
    {xs ys zs : List I} {xs' ys' zs' : List J}
    (hx : All3 E xs xs' (fieldBits u)) (hy : All3 E ys ys' (fieldBits v)) (hz : All3 E zs zs' (ringBits c)) :
    CSpec E (fun r r' => All3 E r r' (ringBits (BitVec.ofNat k (u + v).val + c))) (fieldToRing p xs ys zs)
      (fieldToRing p xs' ys' zs') := by
  unfold fieldToRing
  rw [hz.len, hz.len', length_ringBits]
  refine (spec_addField ho hx hy hkp).bind ?_
  rintro r r' ⟨ss, h, hl, hv⟩
  rw [ringBits_eq (x := BitVec.ofNat k (u + v).val) hl] at h
  · exact spec_addRing hk h hz
  · rw [hv, BitVec.toNat_ofNat]

theorem spec_ringToField (ho : p % 2 = 1) (hk : 0 < k) (hkp : k ≤ modBits p) {u v : BitVec k} {c : ZMod p}
    (hlt : (u + v).toNat < p) {xs ys zs : List I} {xs' ys' zs' : List J}
    (hx : All3 E xs xs' (ringBits u)) (hy : All3 E ys ys' (ringBits v)) (hz : All3 E zs zs' (fieldBits c)) :
    CSpec E (fun r r' => All3 E r r' (fieldBits (((u + v).toNat : ZMod p) + c)))
      (ringToField p (modBits p) xs ys zs) (ringToField p (modBits p) xs' ys' zs') := by
  refine (spec_addRing hk hx hy).bind fun r r' h => ?_
  have := spec_composeField ho h hz (by rw [length_ringBits]; exact hkp) (by rw [val_ringBits]; exact hlt)
  rwa [val_ringBits] at this

theorem spec_ringToRingUpcast (hk : 0 < k) (hkl : k < l) {u v : BitVec k} {c : BitVec l}
    {xs ys zs : List I} {xs' ys' zs' : List J}
    (hx : All3 E xs xs' (ringBits u)) (hy : All3 E ys ys' (ringBits v)) (hz : All3 E zs zs' (ringBits c)) :
    CSpec E (fun r r' => All3 E r r' (ringBits ((u + v).setWidth l + c))) (ringToRingUpcast xs ys zs)
      (ringToRingUpcast xs' ys' zs') := by
  refine (spec_addRing hk hx hy).bind fun r r' h => ?_
  have := spec_composeShortRing h hz (by rw [length_ringBits]; exact hkl) (ringBits_ne_nil hk _)
  rwa [val_ringBits, BitVec.ofNat_toNat] at this

/-! ### Divisions -/

theorem spec_ringDivPower2 {s : Nat} (hs : 0 < s) (hsk : s < k) {u v c : BitVec k}
    {xs ys zs : List I} {xs' ys' zs' : List J}
    (hx : All3 E xs xs' (ringBits u)) (hy : All3 E ys ys' (ringBits v)) (hz : All3 E zs zs' (ringBits c)) :
    CSpec E (fun r r' => All3 E r r' (ringBits (BitVec.ofNat k ((u + v).toNat / 2 ^ s) + c)))
      (ringDivPower2 s xs ys zs) (ringDivPower2 s xs' ys' zs') := by
  refine (spec_addRing (by omega) hx hy).bind fun r r' h => ?_
  have := spec_composeShortRing (h.drop s) hz (by rw [List.length_drop, length_ringBits]; omega) (by
    intro e
    have := congrArg List.length e
    rw [List.length_drop, length_ringBits] at this
    simp at this
    omega)
  rwa [val_drop, val_ringBits] at this

theorem div_lt_mod {x y : Nat} (h : x < p) : x / y < p := (Nat.div_le_self x y).trans_lt h

theorem spec_fieldIntDivPower2 (ho : p % 2 = 1) {s : Nat} {u v c : ZMod p}
    {xs ys zs : List I} {xs' ys' zs' : List J}
    (hx : All3 E xs xs' (fieldBits u)) (hy : All3 E ys ys' (fieldBits v)) (hz : All3 E zs zs' (fieldBits c)) :
    CSpec E (fun r r' => All3 E r r' (fieldBits ((((u + v).val / 2 ^ s : Nat) : ZMod p) + c)))
      (fieldIntDivPower2 p (modBits p) s xs ys zs) (fieldIntDivPower2 p (modBits p) s xs' ys' zs') := by
  unfold fieldIntDivPower2
  rw [hx.len, hx.len', length_fieldBits]
  simp only [ne_eq, not_true_eq_false, if_false]
  have hlf := lt_two_pow_modBits' p
  have hu := ZMod.val_lt u
  have hv := ZMod.val_lt v
  refine (spec_binAddition' hx hy (by rw [length_fieldBits, length_fieldBits]) (fieldBits_ne_nil u)).bind ?_
  rintro ⟨ss, c₁⟩ ⟨ss', c₁'⟩ ⟨ts, y, hts, hc, hlen, e⟩
  rw [length_fieldBits] at hlen e
  rw [val_fieldBits, val_fieldBits] at e
  refine (spec_subP ho hts hc (by rw [hlen]; exact hlf) (by rw [hlen, e]; omega)).bind ?_
  rintro ⟨ss₂, ov⟩ ⟨ss₂', ov'⟩ ⟨ts₂, o, hts₂, hov, hlen₂, e₁, e₂⟩
  refine (CSpec.mapM (S := E) (fun p : Bool × Bool => if o then p.2 else p.1)
    (fun _ _ _ h => CSpec.gMux hov h.1 h.2) ((hts₂.zip hts).drop s)).bind fun r r' hr => ?_
  rw [← List.map_drop.symm, map_zip_ite _ _ (by omega)] at hr
  set q : List Bool := if o then ts else ts₂ with hq
  have hql : q.length = modBits p := by rw [hq]; cases o <;> simp [hlen, hlen₂]
  have hqv : val q = (u + v).val := by
    rw [ZMod.val_add, ← e, ← hlen, hq]
    subst e₁
    by_cases h : val ts + 2 ^ ts.length * y.toNat < p
    · rw [Nat.mod_eq_of_lt h]
      simp only [h, decide_true, if_true]
      cases y
      · simp
      · simp at h; rw [hlen] at h; omega
    · rw [Nat.mod_eq_sub_mod (by omega), Nat.mod_eq_of_lt (by rw [hlen, e]; omega)]
      simp only [h, decide_false, Bool.false_eq_true, if_false]
      exact e₂ (by omega)
  have := spec_composeField ho hr hz (by rw [List.length_drop]; omega)
    (by rw [val_drop, hqv]; exact div_lt_mod (ZMod.val_lt _))
  rwa [val_drop, hqv] at this

theorem ofNat_div (x y : BitVec k) : BitVec.ofNat k (x.toNat / y.toNat) = x / y := by
  apply BitVec.eq_of_toNat_eq
  rw [BitVec.toNat_ofNat, BitVec.toNat_udiv, Nat.mod_eq_of_lt]
  exact (Nat.div_le_self _ _).trans_lt x.isLt

theorem pos_of_ne_zero {x : BitVec k} (h : x ≠ 0) : 0 < x.toNat := by
  rcases Nat.eq_zero_or_pos x.toNat with e | e
  · exact absurd (BitVec.eq_of_toNat_eq (by simpa using e)) h
  · exact e

theorem spec_ringDiv (hk : 0 < k) {x1 x2 y1 y2 c : BitVec k} (h0 : y1 + y2 ≠ 0)
    {a b u v z : List I} {a' b' u' v' z' : List J} (h1 : All3 E a a' (ringBits x1))
    (h2 : All3 E b b' (ringBits x2)) (h3 : All3 E u u' (ringBits y1)) (h4 : All3 E v v' (ringBits y2))
    (hz : All3 E z z' (ringBits c)) :
    CSpec E (fun r r' => All3 E r r' (ringBits ((x1 + x2) / (y1 + y2) + c))) (ringDiv a b u v z)
      (ringDiv a' b' u' v' z') := by
  refine (spec_addRing hk h1 h2).bind fun r r' hr => ?_
  refine (spec_addRing hk h3 h4).bind fun s s' hs => ?_
  refine (spec_binDiv hr hs (by rw [length_ringBits, length_ringBits])
    (by rw [val_ringBits]; exact pos_of_ne_zero h0)).bind ?_
  rintro q q' ⟨ss, h, hl, hv⟩
  rw [length_ringBits] at hl
  have := spec_composeQuotientRing h hz hl (by rintro rfl; simp at hl; omega)
  rwa [hv, val_ringBits, val_ringBits, ofNat_div] at this

theorem spec_ringDivByPublic (hk : 0 < k) {x1 x2 y c : BitVec k} (h0 : y ≠ 0)
    {a b z : List I} {a' b' z' : List J} (h1 : All3 E a a' (ringBits x1))
    (h2 : All3 E b b' (ringBits x2)) (hz : All3 E z z' (ringBits c)) :
    CSpec E (fun r r' => All3 E r r' (ringBits ((x1 + x2) / y + c))) (ringDivByPublic a b (ringBits y) z)
      (ringDivByPublic a' b' (ringBits y) z') := by
  refine (spec_addRing hk h1 h2).bind fun r r' hr => ?_
  refine (spec_binDivByPublic (ringBits y) hr (by rw [length_ringBits, length_ringBits])
    (by rw [val_ringBits]; exact pos_of_ne_zero h0)).bind ?_
  rintro q q' ⟨ss, h, hl, hv⟩
  rw [length_ringBits] at hl
  have := spec_composeQuotientRing h hz hl (by rintro rfl; simp at hl; omega)
  rwa [hv, val_ringBits, val_ringBits, ofNat_div] at this

theorem spec_ringDivByShared (hk : 0 < k) {y1 y2 x c : BitVec k} (h0 : y1 + y2 ≠ 0)
    {a b z : List I} {a' b' z' : List J} (h1 : All3 E a a' (ringBits y1))
    (h2 : All3 E b b' (ringBits y2)) (hz : All3 E z z' (ringBits c)) :
    CSpec E (fun r r' => All3 E r r' (ringBits (x / (y1 + y2) + c))) (ringDivByShared a b (ringBits x) z)
      (ringDivByShared a' b' (ringBits x) z') := by
  refine (spec_addRing hk h1 h2).bind fun r r' hr => ?_
  refine (spec_binDivByShared (ringBits x) hr (ringBits_ne_nil hk x) (by rw [length_ringBits, length_ringBits])
    (by rw [val_ringBits]; exact pos_of_ne_zero h0)).bind ?_
  rintro q q' ⟨ss, h, hl, hv⟩
  rw [length_ringBits] at hl
  have := spec_composeQuotientRing h hz hl (by rintro rfl; simp at hl; omega)
  rwa [hv, val_ringBits, val_ringBits, ofNat_div] at this

theorem zmod_pos {y : ZMod p} (h : y ≠ 0) : 0 < y.val :=
  Nat.pos_of_ne_zero fun e => h ((ZMod.val_eq_zero y).1 e)

theorem spec_addFieldFull (ho : p % 2 = 1) {u v : ZMod p} {xs ys : List I} {xs' ys' : List J}
    (hx : All3 E xs xs' (fieldBits u)) (hy : All3 E ys ys' (fieldBits v)) {n n' : Nat} (hn : n = modBits p)
    (hn' : n' = modBits p) :
    CSpec E (fun r r' => All3 E r r' (fieldBits (u + v))) (adderModPOut p xs ys n)
      (adderModPOut p xs' ys' n') := by
  rw [hn', ← hn]
  exact spec_adderField ho hx hy hn

theorem spec_fieldIntDiv (ho : p % 2 = 1) {x1 x2 y1 y2 c : ZMod p} (h0 : y1 + y2 ≠ 0)
    {a b u v z : List I} {a' b' u' v' z' : List J} (h1 : All3 E a a' (fieldBits x1))
    (h2 : All3 E b b' (fieldBits x2)) (h3 : All3 E u u' (fieldBits y1)) (h4 : All3 E v v' (fieldBits y2))
    (hz : All3 E z z' (fieldBits c)) :
    CSpec E (fun r r' => All3 E r r' (fieldBits ((((x1 + x2).val / (y1 + y2).val : Nat) : ZMod p) + c)))
      (fieldIntDiv p (modBits p) a b u v z) (fieldIntDiv p (modBits p) a' b' u' v' z') := by
  have la : a.length = modBits p := h1.len.trans (length_fieldBits x1)
  have la' : a'.length = modBits p := h1.len'.trans (length_fieldBits x1)
  refine (spec_addFieldFull ho h1 h2 la la').bind fun r r' hr => ?_
  refine (spec_addFieldFull ho h3 h4 la la').bind fun s s' hs => ?_
  refine (spec_binDiv hr hs (by rw [length_fieldBits, length_fieldBits])
    (by rw [val_fieldBits]; exact zmod_pos h0)).bind ?_
  rintro q q' ⟨ss, h, hl, hv⟩
  rw [length_fieldBits] at hl
  rw [val_fieldBits, val_fieldBits] at hv
  have := spec_composeField ho h hz hl.le (by rw [hv]; exact div_lt_mod (ZMod.val_lt _))
  rwa [hv] at this

theorem spec_fieldIntDivByPublic (ho : p % 2 = 1) {x1 x2 y c : ZMod p} (h0 : y ≠ 0)
    {a b z : List I} {a' b' z' : List J} (h1 : All3 E a a' (fieldBits x1))
    (h2 : All3 E b b' (fieldBits x2)) (hz : All3 E z z' (fieldBits c)) :
    CSpec E (fun r r' => All3 E r r' (fieldBits ((((x1 + x2).val / y.val : Nat) : ZMod p) + c)))
      (fieldIntDivByPublic p (modBits p) a b (fieldBits y) z)
      (fieldIntDivByPublic p (modBits p) a' b' (fieldBits y) z') := by
  have la : a.length = modBits p := h1.len.trans (length_fieldBits x1)
  have la' : a'.length = modBits p := h1.len'.trans (length_fieldBits x1)
  refine (spec_addFieldFull ho h1 h2 la la').bind fun r r' hr => ?_
  refine (spec_binDivByPublic (fieldBits y) hr (by rw [length_fieldBits, length_fieldBits])
    (by rw [val_fieldBits]; exact zmod_pos h0)).bind ?_
  rintro q q' ⟨ss, h, hl, hv⟩
  rw [length_fieldBits] at hl
  rw [val_fieldBits, val_fieldBits] at hv
  have := spec_composeField ho h hz hl.le (by rw [hv]; exact div_lt_mod (ZMod.val_lt _))
  rwa [hv] at this

theorem spec_fieldIntDivByShared (ho : p % 2 = 1) {y1 y2 x c : ZMod p} (h0 : y1 + y2 ≠ 0)
    {a b z : List I} {a' b' z' : List J} (h1 : All3 E a a' (fieldBits y1))
    (h2 : All3 E b b' (fieldBits y2)) (hz : All3 E z z' (fieldBits c)) :
    CSpec E (fun r r' => All3 E r r' (fieldBits (((x.val / (y1 + y2).val : Nat) : ZMod p) + c)))
      (fieldIntDivByShared p (modBits p) a b (fieldBits x) z)
      (fieldIntDivByShared p (modBits p) a' b' (fieldBits x) z') := by
  have la : a.length = modBits p := h1.len.trans (length_fieldBits y1)
  have la' : a'.length = modBits p := h1.len'.trans (length_fieldBits y1)
  refine (spec_addFieldFull ho h1 h2 la la').bind fun r r' hr => ?_
  refine (spec_binDivByShared (fieldBits x) hr (fieldBits_ne_nil x) (by rw [length_fieldBits, length_fieldBits])
    (by rw [val_fieldBits]; exact zmod_pos h0)).bind ?_
  rintro q q' ⟨ss, h, hl, hv⟩
  rw [length_fieldBits] at hl
  rw [val_fieldBits, val_fieldBits] at hv
  have := spec_composeField ho h hz hl.le (by rw [hv]; exact div_lt_mod (ZMod.val_lt _))
  rwa [hv] at this

/-! ### Chunks of bits -/

theorem all3_chunks' {n : Nat} (hn : 0 < n) {xs : List I} {xs' : List J} {ps : List Bool} (h : All3 E xs xs' ps) :
    All3 (All3 E) (chunks n xs) (chunks n xs') (chunks n ps) := by
  induction hm : ps.length using Nat.strong_induction_on generalizing xs xs' ps with
  | _ m ih =>
    rcases Nat.eq_zero_or_pos m with e | e
    · have : ps = [] := List.eq_nil_of_length_eq_zero (by omega)
      subst this
      cases h
      rw [chunks_nil, chunks_nil, chunks_nil]
      exact .nil
    · rw [chunks_eq (l := xs) hn (by rw [h.len]; omega), chunks_eq (l := xs') hn (by rw [h.len']; omega),
        chunks_eq (l := ps) hn (by omega)]
      refine .cons (h.take n) (ih (m - n) (by omega) (h.drop n) (by rw [List.length_drop, hm]))

theorem divCeil_succ {n t : Nat} (hn : 0 < n) (ht : 0 < t) : divCeil t n = divCeil (t - n) n + 1 := by
  unfold divCeil
  by_cases h : n ≤ t
  · obtain ⟨s, rfl⟩ := Nat.exists_eq_add_of_le h
    have : n + s + n - 1 = (s + n - 1) + n := by omega
    rw [this, Nat.add_div_right _ hn, Nat.add_sub_cancel_left]
  · have h1 : t - n = 0 := by omega
    rw [h1, Nat.zero_add, Nat.div_eq_of_lt (show n - 1 < n by omega)]
    have : t + n - 1 = (t - 1) + n := by omega
    rw [this, Nat.add_div_right _ hn, Nat.div_eq_of_lt (by omega)]

theorem chunks_eq_map {γ : Type} {n : Nat} (hn : 0 < n) (l : List γ) :
    chunks n l = (List.range (divCeil l.length n)).map fun i => (l.drop (n * i)).take n := by
  induction hm : l.length using Nat.strong_induction_on generalizing l with
  | _ m ih =>
    rcases Nat.eq_zero_or_pos m with e | e
    · have : l = [] := List.eq_nil_of_length_eq_zero (by omega)
      subst this
      rw [chunks_nil, e]
      unfold divCeil
      rw [Nat.zero_add, Nat.div_eq_of_lt (by omega)]
      rfl
    · rw [chunks_eq hn (by omega), divCeil_succ hn e, List.range_succ_eq_map, List.map_cons, List.map_map,
        ih (m - n) (by omega) (l.drop n) (by rw [List.length_drop, hm])]
      simp only [Nat.mul_zero, List.drop_zero, List.drop_drop, Function.comp_def, Nat.succ_eq_add_one, Nat.mul_add,
        Nat.mul_one, Nat.add_comm]

theorem length_chunks {γ : Type} {n : Nat} (hn : 0 < n) (l : List γ) :
    (chunks n l).length = divCeil l.length n := by rw [chunks_eq_map hn]; simp

theorem chunks_ne_nil {γ : Type} {n : Nat} (hn : 0 < n) {l c : List γ} (hc : c ∈ chunks n l) : c ≠ [] := by
  rw [chunks_eq_map hn] at hc
  obtain ⟨i, hi, rfl⟩ := List.mem_map.1 hc
  rw [List.mem_range] at hi
  unfold divCeil at hi
  have : n * i < l.length := by
    have h := Nat.mul_le_of_le_div n (i + 1) (l.length + n - 1) hi
    have e : n * i = i * n := Nat.mul_comm _ _
    have e2 : (i + 1) * n = i * n + n := by ring
    omega
  intro e
  have := congrArg List.length e
  rw [List.length_take, List.length_drop] at this
  simp at this
  omega

theorem length_chunk_le {γ : Type} {n : Nat} (hn : 0 < n) {l c : List γ} (hc : c ∈ chunks n l) :
    c.length ≤ n ∧ c.length ≤ l.length := by
  rw [chunks_eq_map hn] at hc
  obtain ⟨i, hi, rfl⟩ := List.mem_map.1 hc
  rw [List.length_take, List.length_drop]
  omega

theorem val_chunk_le {n : Nat} (hn : 0 < n) {l c : List Bool} (hc : c ∈ chunks n l) : val c ≤ val l := by
  rw [chunks_eq_map hn] at hc
  obtain ⟨i, hi, rfl⟩ := List.mem_map.1 hc
  rw [val_take, val_drop]
  exact (Nat.mod_le _ _).trans (Nat.div_le_self _ _)

/-- The numbers in chunks of `n` bits of `x`, of which there are `t`. -/
def limbs (n t x : Nat) : List Nat := (List.range t).map fun i => x / 2 ^ (n * i) % 2 ^ n

theorem map_val_chunks {n : Nat} (hn : 0 < n) (l : List Bool) :
    (chunks n l).map val = limbs n (divCeil l.length n) (val l) := by
  rw [chunks_eq_map hn, List.map_map]
  refine List.map_congr_left fun i _ => ?_
  simp only [Function.comp_def]
  rw [val_take, val_drop]

theorem zipWith_eq_map {α β γ : Type} (f : α → β → γ) (as : List α) (bs : List β) :
    List.zipWith f as bs = (as.zip bs).map fun t => f t.1 t.2 := by
  rw [List.zip, List.map_zipWith]

/-- Outputs with masks. -/
theorem flatten_masked {γ : Type} [Add γ] (bits : γ → List Bool) (f : List Bool → γ) (qs : List (List Bool))
    (cs : List γ) :
    (List.zipWith (fun q c => bits (f q + c)) qs cs).flatten =
      (List.zipWith (· + ·) (qs.map f) cs).flatMap bits := by
  rw [List.flatMap_def, List.map_zipWith, List.zipWith_map_left]

theorem spec_composeChunks {γ : Type} {n m : Nat} (hn : 0 < n) (hm : 0 < m)
    {f : List I → List I → Circ I (List I)} {f' : List J → List J → Circ J (List J)}
    {fc : γ → List Bool} {out : List Bool → γ → List Bool} {ss : List Bool} {cs : List γ}
    (hc : ∀ c ∈ cs, (fc c).length = m)
    (hf : ∀ q ∈ chunks n ss, ∀ c ∈ cs, ∀ {xs xs' ys ys'}, All3 E xs xs' q → All3 E ys ys' (fc c) →
      CSpec E (fun r r' => All3 E r r' (out q c)) (f xs ys) (f' xs' ys'))
    {a a' b b'} (h1 : All3 E a a' ss) (h2 : All3 E b b' (cs.flatMap fc)) :
    CSpec E (fun r r' => All3 E r r' (List.zipWith out (chunks n ss) cs).flatten)
      (composeChunks n m f a b) (composeChunks n m f' a' b') := by
  have h := ((all3_chunks' hn h1).zip (all3_chunksOf hm hc h2))
  have e : (chunks n ss).zip (cs.map fc) = ((chunks n ss).zip cs).map fun t => (t.1, fc t.2) := by
    rw [List.zip_map_right]
    rfl
  rw [e] at h
  unfold composeChunks
  rw [if_neg (by omega), if_neg (by omega)]
  refine (CSpec.mapM (S := All3 E) (fun t : List Bool × γ => out t.1 t.2) (fun x y t h => by
    obtain ⟨⟨h1, h2⟩, ht⟩ := h
    exact hf t.1 (List.of_mem_zip ht).1 t.2 (List.of_mem_zip ht).2 h1 h2)
    (all3_memZip h.of_map)).bind fun r r' hr => ?_
  refine CSpec.pure ?_
  rw [zipWith_eq_map]
  exact hr.flatten

/-! ### Decompositions -/

theorem spec_decomposeField (ho : p % 2 = 1) {total size : Nat} (hs : 0 < size) (ht : total ≤ modBits p)
    {u v : ZMod p} {cs : List (ZMod p)} {xs ys zs : List I} {xs' ys' zs' : List J}
    (hx : All3 E xs xs' (fieldBits u)) (hy : All3 E ys ys' (fieldBits v)) (hz : All3 E zs zs' (cs.flatMap fieldBits)) :
    CSpec E (fun r r' => All3 E r r' ((List.zipWith (· + ·)
        ((limbs size (divCeil total size) ((u + v).val % 2 ^ total)).map fun q : Nat => (q : ZMod p)) cs).flatMap fieldBits))
      (decomposeField p (modBits p) size total xs ys zs) (decomposeField p (modBits p) size total xs' ys' zs') := by
  refine (spec_addField ho hx hy ht).bind ?_
  rintro r r' ⟨ss, h, hl, hv⟩
  rw [hx.len, hx.len', length_fieldBits]
  have hlt : val ss < p := by rw [hv]; exact (Nat.mod_le _ _).trans_lt (ZMod.val_lt _)
  have := spec_composeChunks (E := E) (fc := fieldBits) (cs := cs) (ss := ss) (n := size) (m := modBits p)
    (out := fun q c => fieldBits ((val q : ZMod p) + c)) (f := composeFieldElement p (modBits p))
    (f' := composeFieldElement p (modBits p)) hs (modBits_pos' p)
    (fun c _ => length_fieldBits c) (fun q hq c _ xs xs' ys ys' h1 h2 => spec_composeField ho h1 h2
      ((length_chunk_le hs hq).2.trans (by omega)) ((val_chunk_le hs hq).trans_lt hlt)) h hz
  have e : ((limbs size (divCeil total size) ((u + v).val % 2 ^ total)).map fun q : Nat => (q : ZMod p)) =
      (chunks size ss).map fun q => (val q : ZMod p) := by
    rw [← hv, ← hl, ← map_val_chunks hs, List.map_map]
    rfl
  rw [e, ← flatten_masked fieldBits (fun q => (val q : ZMod p))]
  exact this

theorem spec_decomposeToRings (ho : p % 2 = 1) {num size : Nat} (hs : 0 < size) (ht : size * num ≤ modBits p)
    (hk : size ≤ k) {u v : ZMod p} {cs : List (BitVec k)} {xs ys zs : List I} {xs' ys' zs' : List J}
    (hx : All3 E xs xs' (fieldBits u)) (hy : All3 E ys ys' (fieldBits v)) (hz : All3 E zs zs' (cs.flatMap ringBits)) :
    CSpec E (fun r r' => All3 E r r' ((List.zipWith (· + ·)
        ((limbs size num ((u + v).val % 2 ^ (size * num))).map fun q : Nat => BitVec.ofNat k q) cs).flatMap ringBits))
      (decomposeToRings p num size k xs ys zs) (decomposeToRings p num size k xs' ys' zs') := by
  refine (spec_addField ho hx hy ht).bind ?_
  rintro r r' ⟨ss, h, hl, hv⟩
  have := spec_composeChunks (E := E) (fc := ringBits) (cs := cs) (ss := ss) (n := size) (m := k)
    (out := fun q c => ringBits (BitVec.ofNat k (val q) + c)) (f := composeChunk)
    (f' := composeChunk) hs (by omega)
    (fun c _ => length_ringBits c) (fun q hq c _ xs xs' ys ys' h1 h2 => spec_composeChunkRing h1 h2
      ((length_chunk_le hs hq).1.trans hk) (chunks_ne_nil hs hq)) h hz
  have hd : divCeil (size * num) size = num := by
    unfold divCeil
    rw [Nat.add_sub_assoc hs, Nat.mul_add_div hs, Nat.div_eq_of_lt (by omega), Nat.add_zero]
  have e : ((limbs size num ((u + v).val % 2 ^ (size * num))).map fun q : Nat => BitVec.ofNat k q) =
      (chunks size ss).map fun q => BitVec.ofNat k (val q) := by
    have := map_val_chunks hs ss
    rw [hl, hd, hv] at this
    rw [← this, List.map_map]
    rfl
  rw [e, ← flatten_masked ringBits (fun q => BitVec.ofNat k (val q))]
  exact this

theorem spec_sliceField (ho : p % 2 = 1) {lo mid bitsize : Nat} (h1 : lo ≤ mid) (h2 : mid ≤ bitsize)
    (ht : bitsize ≤ modBits p)
    {u v c1 c2 : ZMod p} {xs ys zs : List I} {xs' ys' zs' : List J}
    (hx : All3 E xs xs' (fieldBits u)) (hy : All3 E ys ys' (fieldBits v))
    (hz : All3 E zs zs' ([c1, c2].flatMap fieldBits)) :
    CSpec E (fun r r' => All3 E r r' ((List.zipWith (· + ·)
        [(((u + v).val % 2 ^ mid / 2 ^ lo : Nat) : ZMod p), (((u + v).val % 2 ^ bitsize / 2 ^ mid : Nat) : ZMod p)]
        [c1, c2]).flatMap fieldBits))
      (sliceField p (modBits p) lo mid bitsize xs ys zs) (sliceField p (modBits p) lo mid bitsize xs' ys' zs') := by
  refine (spec_addField ho hx hy ht).bind ?_
  rintro r r' ⟨ss, h, hl, hv⟩
  rw [if_neg (by rw [h.len]; omega), if_neg (by rw [h.len']; omega)]
  have hlt : val ss < p := by rw [hv]; exact (Nat.mod_le _ _).trans_lt (ZMod.val_lt _)
  have hm := modBits_pos' p
  have hz' := all3_chunksOf hm (fun c _ => length_fieldBits c) hz
  rw [hx.len, hx.len', length_fieldBits]
  simp only [List.map_cons, List.map_nil] at hz'
  generalize chunks (modBits p) zs = zz at hz' ⊢
  generalize chunks (modBits p) zs' = zz' at hz' ⊢
  cases hz' with
  | cons a1 hz' =>
  cases hz' with
  | cons a2 hz' =>
  cases hz' with
  | nil =>
  refine (spec_composeField ho ((h.take mid).drop lo) a1 (by
      rw [List.length_drop, List.length_take]; omega) (by
      rw [val_drop, val_take]; exact ((Nat.div_le_self _ _).trans (Nat.mod_le _ _)).trans_lt hlt)).bind
    fun l l' hl' => ?_
  refine (spec_composeField ho (h.drop mid) a2 (by rw [List.length_drop]; omega) (by
      rw [val_drop]; exact (Nat.div_le_self _ _).trans_lt hlt)).bind fun m m' hm' => ?_
  refine CSpec.pure ?_
  rw [val_drop, val_take, hv, Nat.mod_mod_of_dvd _ (Nat.pow_dvd_pow 2 h2)] at hl'
  rw [val_drop, hv] at hm'
  simpa using hl'.append hm'

/-! ### Quotient and remainder in limbs -/

theorem spec_ringDivRem (hk : 0 < k) {x1 x2 y : BitVec k} (h0 : y ≠ 0)
    {a b : List I} {a' b' : List J} (h1 : All3 E a a' (ringBits x1)) (h2 : All3 E b b' (ringBits x2)) :
    CSpec E (fun r r' => All3 E r.1 r'.1 (ringBits ((x1 + x2) / y)) ∧ All3 E r.2 r'.2 (ringBits ((x1 + x2) % y)))
      (ringDivRem a b (ringBits y)) (ringDivRem a' b' (ringBits y)) := by
  refine (spec_addRing hk h1 h2).bind fun r r' hr => ?_
  have hy : 0 < val (ringBits y) := by rw [val_ringBits]; exact pos_of_ne_zero h0
  refine (spec_binDivByPublic (ringBits y) hr (by rw [length_ringBits, length_ringBits]) hy).bind ?_
  rintro q q' ⟨ss, hq, hl, hv⟩
  rw [length_ringBits] at hl
  rw [val_ringBits, val_ringBits] at hv
  have hs : ss = ringBits ((x1 + x2) / y) := ringBits_eq hl (by rw [hv, BitVec.toNat_udiv])
  subst hs
  refine (spec_binMulWithPublic hq (ringBits y) (ringBits_ne_nil hk y)).bind ?_
  rintro m m' ⟨ts, hm, hml, hmv⟩
  rw [length_ringBits, length_ringBits] at hml
  rw [val_ringBits, val_ringBits, BitVec.toNat_udiv] at hmv
  rw [hr.len, hr.len', length_ringBits]
  have hle : (x1 + x2).toNat / y.toNat * y.toNat ≤ (x1 + x2).toNat := Nat.div_mul_le_self _ _
  have hlt := (x1 + x2).isLt
  have htk : val (ts.take k) = (x1 + x2).toNat / y.toNat * y.toNat := by
    rw [val_take, hmv, Nat.mod_eq_of_lt (by omega)]
  have hlk : (ts.take k).length = k := by rw [List.length_take]; omega
  refine (spec_binSubtraction hr (hm.take k) (by rw [length_ringBits, hlk]) (ringBits_ne_nil hk _)).bind ?_
  rintro ⟨d, c⟩ ⟨d', c'⟩ ⟨us, y', hd, -, hul, he⟩
  have := (SubSpec.carry hul he (by rw [hlk, val_ringBits]; exact hlt)).2 (by rw [htk, val_ringBits]; exact hle)
  rw [htk, val_ringBits] at this
  refine CSpec.pure ⟨hq, ?_⟩
  rw [← ringBits_eq (bs := us) (x := (x1 + x2) % y) (hul.trans hlk)]
  · exact hd
  · rw [this, BitVec.toNat_umod]
    have := Nat.div_add_mod (x1 + x2).toNat y.toNat
    rw [Nat.mul_comm] at this
    omega

theorem spec_composeAll (ho : p % 2 = 1) {qs : List (List Bool)} {cs : List (ZMod p)} (hl : qs.length ≤ cs.length)
    (hq : ∀ q ∈ qs, q.length ≤ modBits p ∧ val q < p) {xs zs : List (List I)} {xs' zs' : List (List J)}
    (hx : All3 (All3 E) xs xs' qs) (hz : All3 (All3 E) zs zs' (cs.map fieldBits)) :
    CSpec E (fun r r' => All3 E r r' ((List.zipWith (· + ·) (qs.map fun q => (val q : ZMod p)) cs).flatMap fieldBits))
      (composeAll p (modBits p) xs zs) (composeAll p (modBits p) xs' zs') := by
  induction hx generalizing cs zs zs' with
  | nil => exact CSpec.pure (by simpa using .nil)
  | @cons x x' q xs xs' qs h _ ih =>
    cases cs with
    | nil => simp at hl
    | cons c cs =>
      cases hz with
      | cons a hz =>
        have := hq q (by simp)
        refine (spec_composeField ho h a this.1 this.2).bind fun r r' hr => ?_
        refine (ih (by simpa using hl) (fun q h => hq q (by simp [h])) hz).bind fun s s' hs => ?_
        refine CSpec.pure ?_
        simpa using hr.append hs

theorem two_pow_le_modulus {n : Nat} (h : n < modBits p) : 2 ^ n ≤ p := Nat.lt_size.1 h

theorem limbs_take {n s t x : Nat} (h : t ≤ s) : (limbs n s x).take t = limbs n t x := by
  unfold limbs
  rw [← List.map_take, List.take_range, Nat.min_eq_left h]

theorem spec_ringDivByPublicToLimbs (ho : p % 2 = 1) (hk : 0 < k) {x1 x2 y : BitVec k} (h0 : y ≠ 0)
    {size num : Nat} (hs : 0 < size) (hsp : size < modBits p) (hnum : num ≤ divCeil k size) {cs : List (ZMod p)}
    (hc : cs.length = 2 * num)
    {a b c : List I} {a' b' c' : List J} (h1 : All3 E a a' (ringBits x1)) (h2 : All3 E b b' (ringBits x2))
    (hz : All3 E c c' (cs.flatMap fieldBits)) :
    CSpec E (fun r r' => All3 E r r' ((List.zipWith (· + ·)
        ((limbs size num ((x1 + x2) / y).toNat ++ limbs size num ((x1 + x2) % y).toNat).map fun q : Nat => (q : ZMod p))
        cs).flatMap fieldBits))
      (ringDivByPublicToLimbs p (modBits p) (ringBits y) size num a b c)
      (ringDivByPublicToLimbs p (modBits p) (ringBits y) size num a' b' c') := by
  refine (spec_ringDivRem hk h0 h1 h2).bind ?_
  rintro ⟨q, r⟩ ⟨q', r'⟩ ⟨hq, hr⟩
  have e : ∀ z : BitVec k, ((chunks size (ringBits z)).take num).map val = limbs size num z.toNat := by
    intro z
    rw [List.map_take, map_val_chunks hs, length_ringBits, val_ringBits, limbs_take hnum]
  have e' : ∀ z : BitVec k, ∀ q ∈ (chunks size (ringBits z)).take num, q.length ≤ modBits p ∧ val q < p := by
    intro z q hq
    have h := length_chunk_le hs (List.mem_of_mem_take hq)
    refine ⟨by omega, (val_lt q).trans_le ?_⟩
    exact (Nat.pow_le_pow_right (by omega) h.1).trans (two_pow_le_modulus hsp)
  have hlen : ∀ z : BitVec k, ((chunks size (ringBits z)).take num).length ≤ num := by
    intro z; rw [List.length_take]; omega
  have h1 := hlen ((x1 + x2) / y)
  have h2 := hlen ((x1 + x2) % y)
  have := spec_composeAll ho (qs := (chunks size (ringBits ((x1 + x2) / y))).take num ++
      (chunks size (ringBits ((x1 + x2) % y))).take num) (cs := cs) (by
      rw [List.length_append]; omega) (by
      intro q hq
      rcases List.mem_append.1 hq with h | h
      · exact e' _ q h
      · exact e' _ q h)
    (((all3_chunks' hs hq).take num).append ((all3_chunks' hs hr).take num))
    (all3_chunksOf (modBits_pos' p) (fun c _ => length_fieldBits c) hz)
  rw [← e, ← e, ← List.map_append, List.map_map]
  exact this

end Typed

end Verif.Yao
