import Verif.Yao.SortNet
import Mathlib.Order.Lattice
import Mathlib.Order.BooleanAlgebra.Basic
import Mathlib.Logic.Function.Basic
import Mathlib.Order.MinMax
import Mathlib.Data.Bool.Basic
import Mathlib.Tactic.Ring
import Mathlib.Tactic.Linarith

/-!
# The sorting network sorts

Zero-one principle: comparators commute with monotone maps, so it suffices to sort infinite sequences of bits that end
with ones.  Phase `p` merges sorted blocks of length `p` to sorted blocks of length `2p`: after stage `k` the positions
of every residue class modulo `k` are sorted within their block.
-/

namespace Verif.Yao.Net

/-- One comparator. -/
def cas {α : Type} [LinearOrder α] (f : Nat → α) (ab : Nat × Nat) : Nat → α :=
  Function.update (Function.update f ab.1 (min (f ab.1) (f ab.2))) ab.2 (max (f ab.1) (f ab.2))

/-- A list of comparators. -/
def run {α : Type} [LinearOrder α] (L : List (Nat × Nat)) (f : Nat → α) : Nat → α := L.foldl cas f

section

variable {α β : Type} [LinearOrder α] [LinearOrder β]

theorem cas_map {φ : α → β} (hφ : Monotone φ) (f : Nat → α) (ab : Nat × Nat) :
    φ ∘ cas f ab = cas (φ ∘ f) ab := by
  funext x
  simp only [cas, Function.comp, Function.update_apply]
  split
  · exact hφ.map_max
  · split
    · exact hφ.map_min
    · rfl

theorem run_map {φ : α → β} (hφ : Monotone φ) (L : List (Nat × Nat)) (f : Nat → α) :
    φ ∘ run L f = run L (φ ∘ f) := by
  induction L generalizing f with
  | nil => rfl
  | cons ab L ih =>
    show φ ∘ run L (cas f ab) = run L (cas (φ ∘ f) ab)
    rw [ih, cas_map hφ]

theorem run_append (L L' : List (Nat × Nat)) (f : Nat → α) : run (L ++ L') f = run L' (run L f) := by
  simp [run]

/-- Comparators that do not share a position. -/
structure Parallel (L : List (Nat × Nat)) : Prop where
  ne : ∀ ab ∈ L, ab.1 ≠ ab.2
  apart : ∀ ab ∈ L, ∀ cd ∈ L, ab ≠ cd → ab.1 ≠ cd.1 ∧ ab.1 ≠ cd.2 ∧ ab.2 ≠ cd.1 ∧ ab.2 ≠ cd.2

theorem Parallel.tail {ab : Nat × Nat} {L : List (Nat × Nat)} (h : Parallel (ab :: L)) : Parallel L :=
  ⟨fun cd hcd => h.ne cd (by simp [hcd]), fun cd hcd ef hef => h.apart cd (by simp [hcd]) ef (by simp [hef])⟩

theorem cas_fst (f : Nat → α) {ab : Nat × Nat} (h : ab.1 ≠ ab.2) : cas f ab ab.1 = min (f ab.1) (f ab.2) := by
  simp [cas, Function.update_apply, h]

theorem cas_snd (f : Nat → α) {ab : Nat × Nat} : cas f ab ab.2 = max (f ab.1) (f ab.2) := by
  simp [cas]

theorem cas_other (f : Nat → α) {ab : Nat × Nat} {x : Nat} (h1 : x ≠ ab.1) (h2 : x ≠ ab.2) : cas f ab x = f x := by
  simp [cas, Function.update_apply, h1, h2]

/-- What a stage of parallel comparators does at a position. -/
theorem run_parallel {L : List (Nat × Nat)} (h : Parallel L) (f : Nat → α) :
    (∀ ab ∈ L, run L f ab.1 = min (f ab.1) (f ab.2) ∧ run L f ab.2 = max (f ab.1) (f ab.2)) ∧
      ∀ x, (∀ ab ∈ L, x ≠ ab.1 ∧ x ≠ ab.2) → run L f x = f x := by
  induction L generalizing f with
  | nil => exact ⟨by simp, fun _ _ => rfl⟩
  | cons cd L ih =>
    obtain ⟨h1, h2⟩ := ih h.tail (cas f cd)
    have hcd := h.ne cd (by simp)
    refine ⟨fun ab hab => ?_, fun x hx => ?_⟩
    · show run L (cas f cd) ab.1 = _ ∧ run L (cas f cd) ab.2 = _
      by_cases e : ab = cd
      · subst e
        by_cases hm : ab ∈ L
        · obtain ⟨k1, k2⟩ := h1 ab hm
          rw [k1, k2, cas_fst f hcd, cas_snd]
          exact ⟨by simp, by simp⟩
        · have hap : ∀ ef ∈ L, (ab.1 ≠ ef.1 ∧ ab.1 ≠ ef.2) ∧ (ab.2 ≠ ef.1 ∧ ab.2 ≠ ef.2) := fun ef hef => by
            have := h.apart ab (by simp) ef (by simp [hef]) (by rintro rfl; exact hm hef)
            exact ⟨⟨this.1, this.2.1⟩, this.2.2⟩
          rw [h2 ab.1 fun ef hef => (hap ef hef).1, h2 ab.2 fun ef hef => (hap ef hef).2, cas_fst f hcd, cas_snd]
          exact ⟨rfl, rfl⟩
      · have hab' : ab ∈ L := by simpa [e] using hab
        obtain ⟨k1, k2⟩ := h1 ab hab'
        obtain ⟨a1, a2, a3, a4⟩ := h.apart ab hab cd (by simp) e
        rw [k1, k2, cas_other f a1 a2, cas_other f a3 a4]
        exact ⟨rfl, rfl⟩
    · show run L (cas f cd) x = f x
      rw [h2 x fun ab hab => hx ab (by simp [hab])]
      have := hx cd (by simp)
      exact cas_other f this.1 this.2

end

/-! ### The comparators of a stage -/

/-- Is `a` the lower position of a comparator of stage `k` in phase `p`? -/
def Low (p k a : Nat) : Prop :=
  a / (2 * p) = (a + k) / (2 * p) ∧ if k = p then a % (2 * k) < k else k ≤ a % (2 * k)

theorem mem_stepRange {start stop step j : Nat} (hs : 0 < step) :
    j ∈ stepRange start stop step ↔ start ≤ j ∧ j < stop ∧ (j - start) % step = 0 := by
  unfold stepRange
  rw [List.mem_range']
  constructor
  · rintro ⟨i, hi, rfl⟩
    have h1 : (i + 1) * step ≤ stop - start + step - 1 := by
      have := (Nat.le_div_iff_mul_le hs).1 hi
      simpa using this
    have h2 : (i + 1) * step = step * i + step := by ring
    refine ⟨by omega, by omega, ?_⟩
    rw [Nat.add_sub_cancel_left]
    exact Nat.mul_mod_right _ _
  · rintro ⟨h1, h2, h3⟩
    have hdm := Nat.div_add_mod (j - start) step
    rw [h3] at hdm
    refine ⟨(j - start) / step, ?_, by omega⟩
    apply (Nat.le_div_iff_mul_le hs).2
    have h2 : ((j - start) / step + 1) * step = step * ((j - start) / step) + step := by ring
    have h4 : ((j - start) / step).succ * step = ((j - start) / step + 1) * step := rfl
    rw [h4, h2]
    omega

theorem mem_stagePairs {len p k a b : Nat} (hk : 0 < k) (hkp : k = p ∨ k < p) (hlen : k < len) :
    (a, b) ∈ stagePairs len p k ↔ b = a + k ∧ b < len ∧ Low p k a := by
  unfold stagePairs Low
  simp only [List.mem_flatMap, mem_stepRange (show 0 < 2 * k by omega), List.mem_range]
  constructor
  · rintro ⟨j, ⟨hj1, hj2, hj3⟩, i, hi, h⟩
    split at h
    · next hb =>
      simp only [List.mem_singleton, Prod.mk.injEq] at h
      obtain ⟨rfl, rfl⟩ := h
      refine ⟨rfl, by omega, hb, ?_⟩
      have hi' : i < k := by omega
      have hdm := Nat.div_add_mod (j - k % p) (2 * k)
      rw [hj3] at hdm
      rcases hkp with rfl | hkp
      · rw [Nat.mod_self] at *
        rw [if_pos rfl]
        have : i + j = i + 2 * k * ((j - 0) / (2 * k)) := by omega
        rw [this, Nat.add_mul_mod_self_left, Nat.mod_eq_of_lt (by omega)]
        exact hi'
      · rw [Nat.mod_eq_of_lt hkp] at *
        rw [if_neg (by omega)]
        have : i + j = (i + k) + 2 * k * ((j - k) / (2 * k)) := by omega
        rw [this, Nat.add_mul_mod_self_left, Nat.mod_eq_of_lt (by omega)]
        omega
    · simp at h
  · rintro ⟨rfl, hb, hblk, hlow⟩
    have hdm := Nat.div_add_mod a (2 * k)
    have hml := Nat.mod_lt a (show 0 < 2 * k by omega)
    rcases hkp with rfl | hkp
    · rw [if_pos rfl] at hlow
      refine ⟨2 * k * (a / (2 * k)), ⟨?_, ?_, ?_⟩, a % (2 * k), ?_, ?_⟩
      · rw [Nat.mod_self]; omega
      · omega
      · rw [Nat.mod_self, Nat.sub_zero]; exact Nat.mul_mod_right _ _
      · have : a < len - k := by omega
        rw [lt_min_iff]
        omega
      · have : a % (2 * k) + 2 * k * (a / (2 * k)) = a := by omega
        rw [this, if_pos hblk]
        simp
    · rw [if_neg (by omega)] at hlow
      refine ⟨2 * k * (a / (2 * k)) + k, ⟨?_, ?_, ?_⟩, a % (2 * k) - k, ?_, ?_⟩
      · rw [Nat.mod_eq_of_lt hkp]; omega
      · omega
      · rw [Nat.mod_eq_of_lt hkp, Nat.add_sub_cancel]; exact Nat.mul_mod_right _ _
      · rw [lt_min_iff]
        omega
      · have : a % (2 * k) - k + (2 * k * (a / (2 * k)) + k) = a := by omega
        rw [this, if_pos hblk]
        simp

/-- A position is not both lower and upper. -/
theorem Low.not_up {p k a : Nat} (hk : 0 < k) (h : Low p k a) : ¬ Low p k (a + k) := by
  intro h'
  have h1 := h.2
  have h2 := h'.2
  have hdm := Nat.div_add_mod a (2 * k)
  have hml := Nat.mod_lt a (show 0 < 2 * k by omega)
  split at h1
  · next e =>
    rw [if_pos e] at h2
    have : (a + k) % (2 * k) = a % (2 * k) + k := by
      have : a + k = (a % (2 * k) + k) + 2 * k * (a / (2 * k)) := by omega
      rw [this, Nat.add_mul_mod_self_left, Nat.mod_eq_of_lt (by omega)]
    omega
  · next e =>
    rw [if_neg e] at h2
    have : (a + k) % (2 * k) = a % (2 * k) - k := by
      have : a + k = (a % (2 * k) - k) + 2 * k * (a / (2 * k) + 1) := by
        rw [Nat.mul_add]; omega
      rw [this, Nat.add_mul_mod_self_left, Nat.mod_eq_of_lt (by omega)]
    omega

theorem parallel_stagePairs {len p k : Nat} (hk : 0 < k) (hkp : k = p ∨ k < p) (hlen : k < len) :
    Parallel (stagePairs len p k) := by
  refine ⟨fun ab h => ?_, fun ab h cd h' hne => ?_⟩
  · obtain ⟨h1, -, -⟩ := (mem_stagePairs (a := ab.1) (b := ab.2) hk hkp hlen).1 h
    omega
  · obtain ⟨h1, -, h3⟩ := (mem_stagePairs (a := ab.1) (b := ab.2) hk hkp hlen).1 h
    obtain ⟨k1, -, k3⟩ := (mem_stagePairs (a := cd.1) (b := cd.2) hk hkp hlen).1 h'
    have e : ab.1 ≠ cd.1 := by
      intro e
      exact hne (Prod.ext e (by omega))
    refine ⟨e, ?_, ?_, by omega⟩
    · intro e'
      rw [e', k1] at h3
      exact k3.not_up hk h3
    · intro e'
      rw [← e', h1] at k3
      exact h3.not_up hk k3

/-! ### Bits -/

/-- Stage `k` of phase `p` on an infinite sequence of bits. -/
def BStep (p k : Nat) (f g : Nat → Bool) : Prop :=
  (∀ a, Low p k a → g a = (f a && f (a + k)) ∧ g (a + k) = (f a || f (a + k))) ∧
    ∀ x, ¬ Low p k x → (∀ a, Low p k a → x ≠ a + k) → g x = f x

theorem bstep {len p k : Nat} (hk : 0 < k) (hkp : k = p ∨ k < p) (hlen : k < len) {f : Nat → Bool}
    (hf : ∀ i, len ≤ i → f i = true) :
    BStep p k f (run (stagePairs len p k) f) ∧ ∀ i, len ≤ i → run (stagePairs len p k) f i = true := by
  obtain ⟨h1, h2⟩ := run_parallel (parallel_stagePairs hk hkp hlen) f
  have hout : ∀ i, len ≤ i → run (stagePairs len p k) f i = true := fun i hi => by
    rw [h2 i fun ab hab => ?_, hf i hi]
    obtain ⟨e1, e2, -⟩ := (mem_stagePairs (a := ab.1) (b := ab.2) hk hkp hlen).1 hab
    omega
  refine ⟨⟨fun a ha => ?_, fun x hx hx' => ?_⟩, hout⟩
  · by_cases hb : a + k < len
    · exact h1 (a, a + k) ((mem_stagePairs hk hkp hlen).2 ⟨rfl, hb, ha⟩)
    · rw [hf (a + k) (by omega), hout (a + k) (by omega)]
      refine ⟨?_, by simp⟩
      rw [h2 a fun ab hab => ?_]
      · simp
      obtain ⟨e1, e2, e3⟩ := (mem_stagePairs (a := ab.1) (b := ab.2) hk hkp hlen).1 hab
      refine ⟨by omega, fun e => ?_⟩
      rw [e, e1] at ha
      exact e3.not_up hk ha
  · refine h2 x fun ab hab => ?_
    obtain ⟨e1, e2, e3⟩ := (mem_stagePairs (a := ab.1) (b := ab.2) hk hkp hlen).1 hab
    exact ⟨fun e => hx (e ▸ e3), fun e => hx' ab.1 e3 (by omega)⟩

/-- How many numbers below `a` are congruent to `r` modulo `k`. -/
def cnt (a k r : Nat) : Nat := (a + k - 1 - r) / k

theorem cnt_split {a k r : Nat} (hr : r < k) :
    cnt a (2 * k) r + cnt a (2 * k) (r + k) = cnt a k r ∧ cnt a (2 * k) (r + k) ≤ cnt a (2 * k) r ∧
      cnt a (2 * k) r ≤ cnt a (2 * k) (r + k) + 1 := by
  unfold cnt
  have e1 : a + 2 * k - 1 - r = (a + k - 1 - r) + k := by omega
  have e2 : a + 2 * k - 1 - (r + k) = a + k - 1 - r := by omega
  rw [e1, e2]
  generalize a + k - 1 - r = m
  have hk : 0 < k := by omega
  have h0 : (m + k) / (2 * k) = (m / k + 1) / 2 := by
    rw [Nat.mul_comm, ← Nat.div_div_eq_div_mul, Nat.add_div_right _ hk]
  have h1 : m / (2 * k) = m / k / 2 := by
    rw [Nat.mul_comm, ← Nat.div_div_eq_div_mul]
  rw [h0, h1]
  omega

theorem cnt_le {a q k r : Nat} (ha : a ≤ k * q) (hr : r < k) : cnt a k r ≤ q := by
  unfold cnt
  rw [Nat.div_le_iff_le_mul_add_pred (by omega)]
  omega

/-- After stage `k`: in block `m`, the positions of every residue class modulo `k` are sorted. -/
def Inv (p k m a b : Nat) (f : Nat → Bool) : Prop :=
  ∀ r t, r < k → k * t < 2 * p → f (2 * p * m + r + k * t) = decide (cnt a k r + cnt b k r ≤ t)

/-- The block number. -/
theorem block_div {p m x : Nat} (hx : x < 2 * p) : (2 * p * m + x) / (2 * p) = m := by
  rw [Nat.mul_add_div (by omega), Nat.div_eq_of_lt hx, Nat.add_zero]

theorem block_ne {p m x : Nat} (hp : 0 < p) (hx : 2 * p ≤ x) : m < (2 * p * m + x) / (2 * p) := by
  rw [Nat.mul_add_div (by omega)]
  have := Nat.div_pos hx (by omega)
  omega

/-- The first stage of a phase. -/
theorem inv_first {p m a b : Nat} (hp : 0 < p) (ha : a ≤ p) (hb : b ≤ p) {f g : Nat → Bool}
    (hfa : ∀ i, i < p → f (2 * p * m + i) = decide (a ≤ i))
    (hfb : ∀ i, i < p → f (2 * p * m + p + i) = decide (b ≤ i)) (h : BStep p p f g) : Inv p p m a b g := by
  intro r t hr ht
  have ht2 : t < 2 := by
    by_contra hc
    have : 2 * p ≤ p * t := by rw [Nat.mul_comm]; exact Nat.mul_le_mul_left p (by omega)
    omega
  have hlow : Low p p (2 * p * m + r) := by
    refine ⟨?_, ?_⟩
    · rw [block_div (by omega), Nat.add_assoc, block_div (by omega)]
    · rw [if_pos rfl, Nat.mul_add_mod, Nat.mod_eq_of_lt (by omega)]
      exact hr
  obtain ⟨h1, h2⟩ := h.1 _ hlow
  have hca : ∀ c, c ≤ p → cnt c p r = if r < c then 1 else 0 := fun c hc => by
    unfold cnt
    split
    · exact Nat.div_eq_of_lt_le (by omega) (by omega)
    · exact Nat.div_eq_of_lt (by omega)
  have e3 : 2 * p * m + r + p = 2 * p * m + p + r := by omega
  rw [hca a ha, hca b hb]
  rw [e3, hfa r hr, hfb r hr] at h1 h2
  have : t = 0 ∨ t = 1 := by omega
  rcases this with rfl | rfl
  · rw [Nat.mul_zero, Nat.add_zero, h1]
    by_cases c1 : r < a <;> by_cases c2 : r < b <;> simp [c1, c2] <;> omega
  · rw [Nat.mul_one, e3, h2]
    by_cases c1 : r < a <;> by_cases c2 : r < b <;> simp [c1, c2] <;> omega

/-- A later stage: from residues modulo `2k` to residues modulo `k`. -/
theorem inv_next {k q m a b : Nat} (hk : 0 < k) (hq : 0 < q) (ha : a ≤ 2 * k * q) (hb : b ≤ 2 * k * q)
    {f g : Nat → Bool} (hf : Inv (2 * k * q) (2 * k) m a b f) (h : BStep (2 * k * q) k f g) :
    Inv (2 * k * q) k m a b g := by
  have hkp : k ≠ 2 * k * q := by
    intro e
    have : k * 1 < k * (2 * q) := Nat.mul_lt_mul_of_pos_left (by omega) hk
    have e2 : k * (2 * q) = 2 * k * q := by ring
    omega
  set P := 2 * (2 * k * q) with hP
  have hP' : P = 2 * k * (2 * q) := by rw [hP]; ring
  -- bases
  have hbase : P * m = 2 * k * (2 * q * m) := by rw [hP']; ring
  have hlow : ∀ r s, r < k → s < 2 * q → (Low (2 * k * q) k (P * m + (r + k + 2 * k * s)) ↔ s + 1 < 2 * q) := by
    intro r s hr hs
    have hin : r + k + 2 * k * s < P := by
      rw [hP']
      have : 2 * k * (s + 1) ≤ 2 * k * (2 * q) := Nat.mul_le_mul_left _ hs
      rw [Nat.mul_add] at this
      omega
    unfold Low
    rw [if_neg hkp, block_div (by rw [← hP]; exact hin)]
    have hmod : (P * m + (r + k + 2 * k * s)) % (2 * k) = r + k := by
      have : P * m + (r + k + 2 * k * s) = (r + k) + 2 * k * (2 * q * m + s) := by rw [hbase]; ring
      rw [this, Nat.add_mul_mod_self_left, Nat.mod_eq_of_lt (by omega)]
    rw [hmod]
    have e : P * m + (r + k + 2 * k * s) + k = P * m + (r + 2 * k * (s + 1)) := by ring
    rw [e]
    constructor
    · rintro ⟨h1, -⟩
      by_contra hc
      have hs' : s + 1 = 2 * q := by omega
      have := block_ne (p := 2 * k * q) (m := m) (x := r + 2 * k * (s + 1)) (Nat.mul_pos (by omega) hq)
        (by rw [← hP, hs', hP']; omega)
      rw [← hP] at this h1
      omega
    · intro hs'
      refine ⟨?_, by omega⟩
      rw [block_div]
      rw [← hP, hP']
      have : 2 * k * (s + 1 + 1) ≤ 2 * k * (2 * q) := Nat.mul_le_mul_left _ hs'
      have e5 : 2 * k * (s + 1 + 1) = 2 * k * (s + 1) + 2 * k := by ring
      omega
  have hnlow : ∀ r s, r < k → ¬ Low (2 * k * q) k (P * m + (r + 2 * k * s)) := by
    intro r s hr hl
    have := hl.2
    rw [if_neg hkp] at this
    have hmod : (P * m + (r + 2 * k * s)) % (2 * k) = r := by
      have : P * m + (r + 2 * k * s) = r + 2 * k * (2 * q * m + s) := by rw [hbase]; ring
      rw [this, Nat.add_mul_mod_self_left, Nat.mod_eq_of_lt (by omega)]
    omega
  have oldE : ∀ r s, r < k → s < 2 * q → f (P * m + (r + 2 * k * s)) =
      decide (cnt a (2 * k) r + cnt b (2 * k) r ≤ s) := fun r s hr hs => by
    have := hf r s (by omega) (by rw [← hP, hP']; exact Nat.mul_lt_mul_of_pos_left hs (by omega))
    rw [← hP] at this
    rw [← this]
    congr 1
    ring
  have oldO : ∀ r s, r < k → s < 2 * q → f (P * m + (r + k + 2 * k * s)) =
      decide (cnt a (2 * k) (r + k) + cnt b (2 * k) (r + k) ≤ s) := fun r s hr hs => by
    have := hf (r + k) s (by omega) (by rw [← hP, hP']; exact Nat.mul_lt_mul_of_pos_left hs (by omega))
    rw [← hP] at this
    rw [← this]
    congr 1
    ring
  intro r t hr ht
  rw [← hP] at ht ⊢
  have htq : t < 2 * (2 * q) := by
    rw [hP'] at ht
    have : 2 * k * (2 * q) = k * (2 * (2 * q)) := by ring
    rw [this] at ht
    exact Nat.lt_of_mul_lt_mul_left ht
  obtain ⟨a1, a2, a3⟩ := cnt_split (a := a) hr
  obtain ⟨b1, b2, b3⟩ := cnt_split (a := b) hr
  have ca : cnt a (2 * k) r ≤ q := cnt_le ha (by omega)
  have cb : cnt b (2 * k) r ≤ q := cnt_le hb (by omega)
  rw [← a1, ← b1]
  generalize hza : cnt a (2 * k) r = za at *
  generalize hzb : cnt b (2 * k) r = zb at *
  generalize hwa : cnt a (2 * k) (r + k) = wa at *
  generalize hwb : cnt b (2 * k) (r + k) = wb at *
  have hO : ∀ s, s < 2 * q → f (P * m + (r + k + 2 * k * s)) = decide (wa + wb ≤ s) := fun s hs => by
    rw [oldO r s hr hs, hwa, hwb]
  have hE : ∀ s, s < 2 * q → f (P * m + (r + 2 * k * s)) = decide (za + zb ≤ s) := fun s hs => by
    rw [oldE r s hr hs, hza, hzb]
  clear oldO oldE
  rcases Nat.even_or_odd' t with ⟨s, rfl | rfl⟩
  · -- even
    have e : P * m + r + k * (2 * s) = P * m + (r + 2 * k * s) := by ring
    rw [e]
    rcases s with _ | s
    · rw [h.2 _ (hnlow r 0 hr) ?_]
      · have := hE 0 (by omega)
        rw [this, decide_eq_decide]
        omega
      · intro x hx e'
        have h1 := hx.1
        rw [← e', Nat.mul_zero, Nat.add_zero, block_div (by rw [← hP, hP']; nlinarith), Nat.div_eq_iff
          (Nat.mul_pos (by omega) (Nat.mul_pos (by omega) hq)), ← hP, Nat.mul_comm m P] at h1
        omega
    · have hl := (hlow r s hr (by omega)).2 (by omega)
      have e2 : P * m + (r + 2 * k * (s + 1)) = P * m + (r + k + 2 * k * s) + k := by ring
      have := (h.1 _ hl).2
      rw [← e2, hO s (by omega), hE (s + 1) (by omega)] at this
      rw [this, ← Bool.decide_or, decide_eq_decide]
      omega
  · have e : P * m + r + k * (2 * s + 1) = P * m + (r + k + 2 * k * s) := by ring
    rw [e]
    by_cases hs : s + 1 < 2 * q
    · have hl := (hlow r s hr (by omega)).2 hs
      have e2 : P * m + (r + 2 * k * (s + 1)) = P * m + (r + k + 2 * k * s) + k := by ring
      have := (h.1 _ hl).1
      rw [← e2, hO s (by omega), hE (s + 1) (by omega)] at this
      rw [this, ← Bool.decide_and, decide_eq_decide]
      omega
    · have hl : ¬ Low (2 * k * q) k (P * m + (r + k + 2 * k * s)) := fun hl => hs ((hlow r s hr (by omega)).1 hl)
      rw [h.2 _ hl ?_, hO s (by omega), decide_eq_decide]
      · omega
      · intro x hx e'
        have : x = P * m + (r + 2 * k * s) := by
          have : P * m + (r + k + 2 * k * s) = P * m + (r + 2 * k * s) + k := by ring
          omega
        exact hnlow r s hr (this ▸ hx)

/-! ### Phases -/

theorem stages_two_pow_succ (e : Nat) : stages (2 ^ (e + 1)) = 2 ^ (e + 1) :: stages (2 ^ e) := by
  have h : 2 ^ (e + 1) = (2 ^ (e + 1) - 1) + 1 := by
    have := Nat.two_pow_pos (e + 1)
    omega
  conv_lhs => rw [h, stages]
  rw [← h, Nat.pow_succ, Nat.mul_div_cancel _ (by omega)]

theorem stages_one : stages (2 ^ 0) = [2 ^ 0] := by
  rw [show (2 : Nat) ^ 0 = 0 + 1 from rfl, stages]
  simp [stages]

theorem zero_not_mem_stages (k : Nat) : 0 ∉ stages k := by
  induction k using Nat.strong_induction_on with
  | _ k ih =>
    cases k with
    | zero => simp [stages]
    | succ k =>
      rw [stages]
      simp only [List.mem_cons, not_or]
      exact ⟨by omega, ih _ (by omega)⟩

theorem flatMap_cons' {α β : Type} (g : α → List β) (a : α) (l : List α) :
    (a :: l).flatMap g = g a ++ l.flatMap g := rfl

/-- The stages after the first one. -/
theorem inv_stages {len e : Nat} (hlen : 2 ^ e < len) : ∀ (e' : Nat), e' < e → ∀ f : Nat → Bool,
    (∀ i, len ≤ i → f i = true) →
    (∀ i, len ≤ i → run ((stages (2 ^ e')).flatMap fun k => stagePairs len (2 ^ e) k) f i = true) ∧
    ∀ m a b, a ≤ 2 ^ e → b ≤ 2 ^ e → Inv (2 ^ e) (2 ^ (e' + 1)) m a b f →
      Inv (2 ^ e) 1 m a b (run ((stages (2 ^ e')).flatMap fun k => stagePairs len (2 ^ e) k) f)
  | 0, he, f, hf => by
    have hp : 2 ^ e = 2 * 1 * 2 ^ (e - 1) := by
      rw [Nat.mul_one, ← Nat.pow_succ']
      congr 1
      omega
    have h1 : 1 < 2 ^ e := Nat.one_lt_two_pow (by omega)
    obtain ⟨hs, ht⟩ := bstep (p := 2 ^ e) (k := 1) (by omega) (.inr h1) (by omega) hf
    have hr : (stages (2 ^ 0)).flatMap (fun k => stagePairs len (2 ^ e) k) = stagePairs len (2 ^ e) 1 := by
      rw [stages_one]; simp
    rw [hr]
    refine ⟨ht, fun m a b ha hb hi => ?_⟩
    rw [hp] at *
    exact inv_next (k := 1) (by omega) (Nat.two_pow_pos _) ha hb hi hs
  | e' + 1, he, f, hf => by
    have hp : 2 ^ e = 2 * 2 ^ (e' + 1) * 2 ^ (e - e' - 2) := by
      rw [← Nat.pow_succ', ← Nat.pow_add]
      congr 1
      omega
    have h1 : 2 ^ (e' + 1) < 2 ^ e := Nat.pow_lt_pow_right (by omega) he
    obtain ⟨hs, ht⟩ := bstep (p := 2 ^ e) (k := 2 ^ (e' + 1)) (Nat.two_pow_pos _) (.inr h1) (by omega) hf
    rw [stages_two_pow_succ, flatMap_cons', run_append]
    obtain ⟨i1, i2⟩ := inv_stages hlen e' (by omega) _ ht
    refine ⟨i1, fun m a b ha hb hi => i2 m a b ha hb ?_⟩
    have hi' : Inv (2 ^ e) (2 * 2 ^ (e' + 1)) m a b f := by
      rw [← Nat.pow_succ']; exact hi
    generalize run (stagePairs len (2 ^ e) (2 ^ (e' + 1))) f = g at hs
    clear i1 i2 ht
    rw [hp] at ha hb hi' hs ⊢
    exact inv_next (Nat.two_pow_pos _) (Nat.two_pow_pos _) ha hb hi' hs

/-- Blocks of length `p` are sorted. -/
def Blocks (p : Nat) (f : Nat → Bool) : Prop := ∀ m, ∃ a, a ≤ p ∧ ∀ i, i < p → f (p * m + i) = decide (a ≤ i)

theorem blocks_of_inv {p : Nat} {f : Nat → Bool} (h : ∀ m, ∃ a b, a ≤ p ∧ b ≤ p ∧ Inv p 1 m a b f) :
    Blocks (2 * p) f := by
  intro m
  obtain ⟨a, b, ha, hb, hi⟩ := h m
  refine ⟨a + b, by omega, fun i h => ?_⟩
  have := hi 0 i (by omega) (by omega)
  simpa [cnt] using this

theorem blocks_phase {len e : Nat} (hlen : 2 ^ e < len) {f : Nat → Bool} (hf : ∀ i, len ≤ i → f i = true)
    (hb : Blocks (2 ^ e) f) :
    (∀ i, len ≤ i → run ((stages (2 ^ e)).flatMap fun k => stagePairs len (2 ^ e) k) f i = true) ∧
      Blocks (2 ^ (e + 1)) (run ((stages (2 ^ e)).flatMap fun k => stagePairs len (2 ^ e) k) f) := by
  obtain ⟨hs, ht⟩ := bstep (p := 2 ^ e) (k := 2 ^ e) (Nat.two_pow_pos _) (.inl rfl) hlen hf
  have hfirst : ∀ m, ∃ a b, a ≤ 2 ^ e ∧ b ≤ 2 ^ e ∧
      Inv (2 ^ e) (2 ^ e) m a b (run (stagePairs len (2 ^ e) (2 ^ e)) f) := by
    intro m
    obtain ⟨a, ha, hfa⟩ := hb (2 * m)
    obtain ⟨b, hb, hfb⟩ := hb (2 * m + 1)
    refine ⟨a, b, ha, hb, inv_first (Nat.two_pow_pos _) ha hb (fun i hi => ?_) (fun i hi => ?_) hs⟩
    · rw [← hfa i hi]
      congr 1
      ring
    · rw [← hfb i hi]
      congr 1
      ring
  rw [Nat.pow_succ', ]
  rcases e with _ | e
  · have hr : (stages (2 ^ 0)).flatMap (fun k => stagePairs len (2 ^ 0) k) = stagePairs len (2 ^ 0) (2 ^ 0) := by
      rw [stages_one]; simp
    rw [hr]
    exact ⟨ht, blocks_of_inv hfirst⟩
  · rw [stages_two_pow_succ, flatMap_cons', run_append]
    obtain ⟨i1, i2⟩ := inv_stages hlen e (by omega) _ ht
    refine ⟨i1, blocks_of_inv fun m => ?_⟩
    obtain ⟨a, b, ha, hb, hi⟩ := hfirst m
    exact ⟨a, b, ha, hb, i2 m a b ha hb hi⟩

theorem blocks_phases {len : Nat} : ∀ (fuel e : Nat) (f : Nat → Bool), len ≤ 2 ^ (e + fuel) →
    (∀ i, len ≤ i → f i = true) → Blocks (2 ^ e) f →
    ∃ q, len ≤ q ∧ Blocks q (run ((phases len fuel (2 ^ e)).flatMap fun p =>
        (stages p).flatMap fun k => stagePairs len p k) f) ∧
      ∀ i, len ≤ i → run ((phases len fuel (2 ^ e)).flatMap fun p =>
        (stages p).flatMap fun k => stagePairs len p k) f i = true
  | 0, e, f, h, hf, hb => ⟨2 ^ e, by simpa using h, hb, hf⟩
  | fuel + 1, e, f, h, hf, hb => by
    unfold phases
    by_cases hc : 2 ^ e < len
    · rw [if_pos hc, flatMap_cons', run_append]
      obtain ⟨i1, i2⟩ := blocks_phase hc hf hb
      rw [← Nat.pow_succ']
      exact blocks_phases fuel (e + 1) _ (by rwa [Nat.add_assoc, Nat.add_comm 1]) i1 i2
    · rw [if_neg hc]
      exact ⟨2 ^ e, by omega, hb, hf⟩

/-- The network sorts bits. -/
theorem sorts_bits {len : Nat} {f : Nat → Bool} (hf : ∀ i, len ≤ i → f i = true) {i j : Nat} (hij : i ≤ j)
    (h : run (sortPairs len) f i = true) : run (sortPairs len) f j = true := by
  obtain ⟨q, h1, h2, h3⟩ := blocks_phases (len := len) len 0 f (by rw [Nat.zero_add]; exact Nat.lt_two_pow_self.le) hf
    (fun m => by
      rcases hm : f m
      · exact ⟨1, by simp, fun i hi => by obtain rfl : i = 0 := by simpa using hi
                                          simpa using hm⟩
      · exact ⟨0, by simp, fun i hi => by obtain rfl : i = 0 := by simpa using hi
                                          simpa using hm⟩)
  change Blocks q (run (sortPairs len) f) at h2
  change ∀ i, len ≤ i → run (sortPairs len) f i = true at h3
  by_cases hj : len ≤ j
  · exact h3 j hj
  · obtain ⟨a, -, ha⟩ := h2 0
    rw [Nat.mul_zero] at ha
    have e1 := ha i (by omega)
    have e2 := ha j (by omega)
    rw [Nat.zero_add] at e1 e2
    rw [e1, decide_eq_true_eq] at h
    rw [e2, decide_eq_true_eq]
    omega

/-- The network sorts. -/
theorem sorts {α : Type} [LinearOrder α] [OrderTop α] {len : Nat} {f : Nat → α} (hf : ∀ i, len ≤ i → f i = ⊤)
    {i j : Nat} (hij : i ≤ j) : run (sortPairs len) f i ≤ run (sortPairs len) f j := by
  have hφ : Monotone fun v => decide (run (sortPairs len) f i ≤ v) := by
    intro x y hxy
    show decide _ ≤ decide _
    rw [Bool.le_iff_imp]
    simp only [decide_eq_true_eq]
    exact fun h => h.trans hxy
  have hr := run_map hφ (sortPairs len) f
  have := sorts_bits (f := (fun v => decide (run (sortPairs len) f i ≤ v)) ∘ f) (len := len)
    (fun k hk => by simp [hf k hk]) hij
  rw [← hr] at this
  simpa using this

theorem pairs_lt {len a b : Nat} (h : (a, b) ∈ sortPairs len) : a < b ∧ b < len := by
  unfold sortPairs at h
  simp only [List.mem_flatMap] at h
  obtain ⟨p, -, k, hk, h⟩ := h
  have hk0 : 0 < k := by
    by_contra hc
    obtain rfl : k = 0 := by omega
    exact absurd hk (zero_not_mem_stages p)
  unfold stagePairs at h
  simp only [List.mem_flatMap, List.mem_range] at h
  obtain ⟨j, hj, i, hi, h⟩ := h
  split at h
  · simp only [List.mem_singleton, Prod.mk.injEq] at h
    omega
  · simp at h

end Verif.Yao.Net
