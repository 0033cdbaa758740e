import Verif.Shamir.ShareLemmas
import Verif.Shamir.History
import Verif.Props.Demo

/-!
# Properties C32–C38, C55: Shamir sharing

`n` parties, threshold `t`, any field in which `0, 1, …, n` are different (`PointsDistinct`).
`IsShamir`, `IsShamirs` and `IsPair` are in `Verif/Spec/Shamir.lean`.  `ShCorr t st` is the relation between
the states of the parties that `C37_setup` establishes and every operation preserves.
-/

namespace Verif.Props

open Verif.Shamir

variable {n : Nat} {F V R S M Seed : Type} [Field F] [AddCommGroup V] [Module F V]

/-! ## C32 -/

/-- C32: dealing gives every party its share of one sharing of the secret. -/
theorem C32_share [Sample R V] (v : V) (d : Nat) (rng : R) :
    ∃ s : Fin n → V, (share F v n d rng).1 = List.ofFn s ∧ IsShamir F d s v := share_isShamir v d rng

/-- C32: the shares of any more than `d` different parties, in any order, combine to the secret. -/
theorem C32_combine [DecidableEq F] (hF : PointsDistinct F n) {d : Nat} {s : Fin n → V} {v : V}
    (h : IsShamir F d s v) {parties : List (Fin n)} (hp : parties.Nodup) (hd : d < parties.length) :
    combine F (parties.map s) (parties.map fun i => i.val + 1) d = .ok v := by
  obtain ⟨c, rfl, hc⟩ := h
  have hP : Points F (parties.map fun i => i.val + 1) :=
    points_of_distinct hF ((List.nodup_map_iff (fun a b hab => by
      exact Fin.ext (by omega))).mpr hp) (by
        simp only [List.mem_map]; rintro _ ⟨i, -, rfl⟩; exact i.2)
  have := combine_poly (V := V) hP (d := d) (by simpa using hd) c
  rw [List.map_map] at this
  rw [← this]
  congr 1
  exact List.map_congr_left fun i _ => hc i

/-- C32: with too few shares, or with a wrong number of indices, `combine` reports an error. -/
theorem C32_reject [DecidableEq F] (shares : List V) (coeffs : List Nat) (d : Nat)
    (h : shares.length ≠ coeffs.length ∨ shares.length ≤ d) :
    ∃ e, combine F shares coeffs d = .error (.err e) := by
  rw [combine]
  by_cases h1 : shares.length ≠ coeffs.length
  · exact ⟨_, if_pos h1⟩
  · rw [if_neg h1, if_pos (by tauto)]
    exact ⟨_, rfl⟩

/-- C32: dealing a vector. -/
theorem C32_share_vec [Sample R V] (vs : List V) (d : Nat) (rng : R) :
    ∃ s : Fin n → List V, (shareMany F vs d n rng).1 = List.ofFn s ∧ IsShamirs F d s vs :=
  ⟨_, by rw [shareMany_eq, range_map_ofFn], shareCols_isShamir vs d rng⟩

/-- C32: combining the vectors of any more than `d` different parties. -/
theorem C32_combine_vec [DecidableEq F] (hF : PointsDistinct F n) {d : Nat} {s : Fin n → List V}
    {vs : List V} (h : IsShamirs F d s vs) {parties : List (Fin n)} (hp : parties.Nodup)
    (hd : d < parties.length) :
    combineMany F (parties.map s) (parties.map fun i => i.val + 1) d = .ok vs := by
  obtain ⟨l, rfl, hl⟩ := h
  have hP : Points F (parties.map fun i => i.val + 1) :=
    points_of_distinct hF ((List.nodup_map_iff (fun a b hab => by
      exact Fin.ext (by omega))).mpr hp) (by
        simp only [List.mem_map]; rintro _ ⟨i, -, rfl⟩; exact i.2)
  have : ∃ cs : List (Nat → V), cs.map (· 0) = vs ∧
      ∀ i : Fin n, l.map (· i) = cs.map fun c => polyAt d c ((i.val + 1 : Nat) : F) := by
    clear hd
    induction hl with
    | nil => exact ⟨[], rfl, fun _ => rfl⟩
    | cons hx _ ih =>
      obtain ⟨c, rfl, hc⟩ := hx
      obtain ⟨cs, rfl, hcs⟩ := ih
      exact ⟨c :: cs, rfl, fun i => by simp only [List.map_cons, hc, hcs]⟩
  obtain ⟨cs, rfl, hcs⟩ := this
  have := combineMany_cols (V := V) hP (d := d) (by simpa using hd) cs
  rw [List.map_map] at this
  rw [← this]
  congr 1
  exact List.map_congr_left fun i _ => hcs i

/-- C32: vectors: wrong numbers of vectors, or vectors of different lengths, are reported. -/
theorem C32_reject_vec [DecidableEq F] (shares : List (List V)) (coeffs : List Nat) (d : Nat)
    (h : shares.length ≠ coeffs.length ∨ shares.length ≤ d ∨
      ∃ a ∈ shares, ∃ b ∈ shares, a.length ≠ b.length) :
    ∃ e, combineMany F shares coeffs d = .error (.err e) := by
  rw [combineMany.eq_def]
  by_cases h1 : shares.length ≠ coeffs.length
  · exact ⟨_, if_pos h1⟩
  rw [if_neg h1]
  by_cases h2 : shares.length ≤ d
  · exact ⟨_, if_pos h2⟩
  rw [if_neg h2]
  obtain ⟨a, ha, b, hb, hab⟩ : ∃ a ∈ shares, ∃ b ∈ shares, a.length ≠ b.length := by tauto
  cases shares with
  | nil => simp at ha
  | cons first rest =>
    simp only
    rw [if_pos]
    · exact ⟨_, rfl⟩
    · rw [List.any_eq_true]
      by_cases e : a.length = first.length
      · rcases List.mem_cons.mp hb with rfl | hb
        · exact absurd e hab
        · exact ⟨b, hb, by simp; omega⟩
      · rcases List.mem_cons.mp ha with rfl | ha
        · exact absurd rfl e
        · exact ⟨a, ha, by simpa using e⟩

theorem _root_.Verif.Demo.points7 : PointsDistinct Demo.F7 5 := by
  intro i j hi hj h
  have := (ZMod.natCast_eq_natCast_iff i j 7).mp h
  rw [Nat.ModEq, Nat.mod_eq_of_lt (by omega), Nat.mod_eq_of_lt (by omega)] at this
  exact this

theorem _root_.Verif.Demo.points73 : PointsDistinct Demo.F7 3 :=
  fun i j hi hj => Demo.points7 i j (by omega) (by omega)

/-- Shares of `3` by `3 + 2 x` for three parties. -/
def _root_.Verif.Demo.sh3 (i : Fin 3) : Demo.F7 := 3 + 2 * ((i.val + 1 : Nat) : Demo.F7)
/-- Shares of `4` by `4 + 5 x` for three parties. -/
def _root_.Verif.Demo.sh4 (i : Fin 3) : Demo.F7 := 4 + 5 * ((i.val + 1 : Nat) : Demo.F7)

theorem _root_.Verif.Demo.isShamir_sh3 : IsShamir Demo.F7 1 Demo.sh3 3 :=
  ⟨fun k => if k = 0 then 3 else 2, rfl, fun i => by simp [polyAt, Finset.sum_range_succ, Demo.sh3]; ring⟩
theorem _root_.Verif.Demo.isShamir_sh4 : IsShamir Demo.F7 1 Demo.sh4 4 :=
  ⟨fun k => if k = 0 then 4 else 5, rfl, fun i => by simp [polyAt, Finset.sum_range_succ, Demo.sh4]; ring⟩
theorem _root_.Verif.Demo.isShamirs_34 :
    IsShamirs Demo.F7 1 (fun i => [Demo.sh3 i, Demo.sh4 i]) [3, 4] :=
  ⟨[Demo.sh3, Demo.sh4], rfl, .cons Demo.isShamir_sh3 (.cons Demo.isShamir_sh4 .nil)⟩

example : combine Demo.F7 [Demo.sh3 2, Demo.sh3 0] [3, 1] 1 = .ok 3 :=
  C32_combine Demo.points73 Demo.isShamir_sh3 (parties := [2, 0]) (by decide) (by decide)
example : combineMany Demo.F7 [[Demo.sh3 2, Demo.sh4 2], [Demo.sh3 1, Demo.sh4 1]] [3, 2] 1 =
    .ok [3, 4] :=
  C32_combine_vec Demo.points73 Demo.isShamirs_34 (parties := [2, 1]) (by decide) (by decide)
example : ∃ e, combine Demo.F7 [(5 : Demo.F7)] [1] 1 = .error (.err e) :=
  C32_reject _ _ _ (Or.inr (by decide))
example : ∃ e, combineMany Demo.F7 [[5, 1], [(4 : Demo.F7)]] [1, 2] 1 = .error (.err e) :=
  C32_reject_vec _ _ _ (Or.inr (Or.inr ⟨[5, 1], by simp, [4], by simp, by simp⟩))

/-! ## C33 -/

/-- C33: for a vector of secrets shared with degree `t`, what a set of at most `t` parties receives is
produced by exactly as many dealer tapes for the secrets `vs` as for any other secrets `ws`. -/
theorem C33_privacy (hF : PointsDistinct F n) {t : Nat} (vs ws : List V)
    (hl : vs.length = ws.length) (A : Finset (Fin n)) (hA : A.card ≤ t) (view : Fin n → List V) :
    letI : Inhabited V := ⟨0⟩
    letI := tapeSample V
    countTapes (t * vs.length)
        (fun tape : List V => ∀ i ∈ A, (shareMany F vs t n tape).1[i.val]? = some (view i)) =
      countTapes (t * vs.length)
        (fun tape : List V => ∀ i ∈ A, (shareMany F ws t n tape).1[i.val]? = some (view i)) := by
  letI : Inhabited V := ⟨0⟩
  letI := tapeSample V
  obtain ⟨q, hq, hz⟩ := exists_mask hF A hA
  have key : ∀ {us us' : List V}, us.length = us'.length → ∀ tape : List V,
      tape.length = t * us.length → ∀ i ∈ A,
      (shareMany F us' t n (shiftBlocks q (List.zipWith (fun v w => w - v) us us') tape)).1[i.val]? =
        (shareMany F us t n tape).1[i.val]? := by
    intro us us' hu tape ht i hi
    have := shareCols_shift (V := V) (hz i hi) hu tape (by rw [hq]; exact ht)
    rw [hq] at this
    simp only [shareMany_eq, List.getElem?_map, List.getElem?_range i.2, Option.map_some]
    exact congrArg some this
  have hneg : ∀ us us' : List V, (List.zipWith (fun v w => w - v) us us').map (- ·) =
      List.zipWith (fun v w => w - v) us' us := by
    intro us us'
    rw [List.map_zipWith, List.zipWith_comm]
    simp
  refine Nat.card_congr
    ⟨fun x => ⟨shiftBlocks q (List.zipWith (fun v w => w - v) vs ws) x.1, ?_, ?_⟩,
     fun x => ⟨shiftBlocks q (List.zipWith (fun v w => w - v) ws vs) x.1, ?_, ?_⟩, fun x => ?_, fun x => ?_⟩
  · rw [shiftBlocks_length]; exact x.2.1
  · intro i hi; rw [key hl _ x.2.1 i hi]; exact x.2.2 i hi
  · rw [shiftBlocks_length]; exact x.2.1
  · intro i hi; rw [key hl.symm _ (by rw [← hl]; exact x.2.1) i hi]; exact x.2.2 i hi
  · refine Subtype.ext ?_
    simp only
    rw [← hneg]
    exact shiftBlocks_inv q _ _ (by simp [hq, ← hl, x.2.1])
  · refine Subtype.ext ?_
    simp only
    rw [← hneg]
    exact shiftBlocks_inv q _ _ (by simp [hq, ← hl, x.2.1])

/-- C33 is not about empty sets: every vector of `t` shares does occur. -/
theorem C33_possible [DecidableEq F] (hF : PointsDistinct F n) (v : F) (A : Finset (Fin n))
    (view : Fin n → F) :
    letI : Inhabited F := ⟨0⟩
    letI := tapeSample F
    ∃ tape : List F, tape.length = A.card ∧
      ∀ i ∈ A, (share F v n A.card tape).1[i.val]? = some (view i) := by
  letI : Inhabited F := ⟨0⟩
  letI := tapeSample F
  have hP : Points F (0 :: A.toList.map fun i : Fin n => i.val + 1) :=
    points_of_distinct hF (List.nodup_cons.mpr ⟨by simp, (List.nodup_map_iff (fun a b hab => by
      exact Fin.ext (by omega))).mpr A.nodup_toList⟩) (by
        simp only [List.mem_cons, List.mem_map]
        rintro _ (rfl | ⟨i, -, rfl⟩)
        · omega
        · exact i.2)
  obtain ⟨table, -, ht⟩ := precompute_spec hP
  have hi := interpolate_spec hP.nodup ht
    (shares := v :: A.toList.map view) (by simp)
  obtain ⟨h1, h2⟩ := hi
  cases hp : interpolateFromPrecomputed (v :: A.toList.map view) table with
  | nil => rw [hp] at h1; simp at h1
  | cons c cs =>
    rw [hp] at h1 h2
    have hc : c = v := by
      have := h2 0 (by simp)
      simpa [horner_zero] using this
    subst hc
    have hlen : cs.length = A.card := by simpa using h1
    refine ⟨cs, hlen, fun i hi => ?_⟩
    rw [share_eq, List.getElem?_map, List.getElem?_range i.2, Option.map_some,
      sampleN_tape _ _ (by omega), List.take_of_length_le (by omega)]
    congr 1
    obtain ⟨k, hk, hki⟩ := List.getElem_of_mem (Finset.mem_toList.mpr hi)
    have := h2 (k + 1) (by simpa using hk)
    simpa [hki] using this

example (view : Fin 3 → List Demo.F7) :
    letI : Inhabited Demo.F7 := ⟨0⟩
    letI := tapeSample Demo.F7
    countTapes (1 * 2) (fun tape : List Demo.F7 => ∀ i ∈ ({2} : Finset (Fin 3)),
        (shareMany Demo.F7 [3, 4] 1 3 tape).1[i.val]? = some (view i)) =
      countTapes (1 * 2) (fun tape : List Demo.F7 => ∀ i ∈ ({2} : Finset (Fin 3)),
        (shareMany Demo.F7 [1, 6] 1 3 tape).1[i.val]? = some (view i)) :=
  C33_privacy Demo.points73 [3, 4] [1, 6] rfl {2} (by decide) view

/-! ## C34 -/

/-- C34: the local operations compute on the shared values, for elements and points alike. -/
theorem C34_linear {t : Nat} {a b : Fin n → V} {x y : V} (ha : IsShamir F t a x)
    (hb : IsShamir F t b y) (p : V) (c : F) :
    IsShamir F t (fun i => Shamir.add (a i) (b i)) (x + y) ∧
    IsShamir F t (fun i => Shamir.sub (a i) (b i)) (x - y) ∧
    IsShamir F t (fun i => Shamir.neg (a i)) (-x) ∧
    IsShamir F t (fun i => Shamir.addPublic (a i) p) (x + p) ∧
    IsShamir F t (fun i => Shamir.subPublic (a i) p) (x - p) ∧
    IsShamir F t (fun i => Shamir.mulPublic (a i) c) (c • x) ∧
    IsShamir F t (fun _ : Fin n => Shamir.promote p) p :=
  ⟨ha.add hb, ha.sub hb, ha.neg, ha.add (.const t p), ha.sub (.const t p), ha.smul c, .const t p⟩

theorem isShamirs_zipWith_append {t : Nat} {a b : Fin n → List V} {xs ys : List V} {f : V → V → V}
    (hf : ∀ a b x y, IsShamir F (n := n) t a x → IsShamir F t b y →
      IsShamir F t (fun i => f (a i) (b i)) (f x y))
    (ha : IsShamirs F t a xs) (hb : IsShamirs F t b ys) (hl : xs.length = ys.length) :
    IsShamirs F t (fun i => List.zipWith f (a i) (b i) ++ (a i).drop (b i).length)
      (List.zipWith f xs ys) := by
  have : ∀ i, (a i).drop (b i).length = [] := fun i => by
    rw [List.drop_eq_nil_iff, ha.length i, hb.length i, hl]
  simp only [this, List.append_nil]
  exact Cols.zipWith ha hb fun _ _ _ _ hx hy => hf _ _ _ _ hx hy

/-- C34: vectors of equal length. -/
theorem C34_linear_vec {t : Nat} {a b : Fin n → List V} {xs ys : List V} (ha : IsShamirs F t a xs)
    (hb : IsShamirs F t b ys) (hl : xs.length = ys.length) :
    IsShamirs F t (fun i => Shamir.addVec (a i) (b i)) (List.zipWith (· + ·) xs ys) ∧
    IsShamirs F t (fun i => Shamir.subVec (a i) (b i)) (List.zipWith (· - ·) xs ys) :=
  ⟨isShamirs_zipWith_append (fun _ _ _ _ h1 h2 => h1.add h2) ha hb hl,
    isShamirs_zipWith_append (fun _ _ _ _ h1 h2 => h1.sub h2) ha hb hl⟩

/-- C34: dividing by a public value; zero is rejected by every party. -/
theorem C34_div_public [DecidableEq F] {t : Nat} {a : Fin n → F} {x : F} (ha : IsShamir F t a x)
    (p : F) :
    (p = 0 → ∃ e, ∀ i, Shamir.divSharedByPublic (a i) p = .error (.err e)) ∧
    (p ≠ 0 → ∃ r : Fin n → F, (∀ i, Shamir.divSharedByPublic (a i) p = .ok (r i)) ∧
      IsShamir F t r (x / p)) := by
  constructor
  · rintro rfl
    exact ⟨_, fun i => if_pos rfl⟩
  · intro hp
    refine ⟨_, fun i => if_neg hp, ?_⟩
    have := ha.smul p⁻¹
    rw [smul_eq_mul, mul_comm, ← div_eq_mul_inv] at this
    exact this

example : IsShamir Demo.F7 1 (fun i => Shamir.sub (Demo.sh3 i) (Demo.sh4 i)) (3 - 4) :=
  (C34_linear Demo.isShamir_sh3 Demo.isShamir_sh4 0 0).2.1
example : IsShamirs Demo.F7 1 (fun i => Shamir.addVec [Demo.sh3 i, Demo.sh4 i] [Demo.sh3 i, Demo.sh4 i])
    [3 + 3, 4 + 4] := (C34_linear_vec Demo.isShamirs_34 Demo.isShamirs_34 rfl).1

/-! ## C37 -/

section

variable [DecidableEq F] [Inhabited Seed] [Sample R Seed] [Seedable R Seed] [Sample R F]
  [Codec M (List Seed)] [Codec M (List F)]

/-- C37: preprocessing for `amount` pairs ends at every party, for all seeds. All buffered pairs are double
sharings: for every position the parties' entries are a degree-`t` and a degree-`2t` sharing of one
value. At least `amount` pairs are buffered, and the states made from the result are ready for use. -/
theorem C37_setup {t amount : Nat} (hF : PointsDistinct F n) (hb : 2 * t + 1 ≤ n) (hl : t + 1 < n)
    (seed : Fin n → Seed) (st : Fin n → S) :
    Ensures (M := M) (fun i => (preprocessingNew F (seed i) t amount :
        MPC (Fin n) S M Err (ShamirRng n R F))) st
      (fun g _ =>
        (∃ buf : List (Fin n → F × F), amount ≤ buf.length ∧ (∀ p ∈ buf, IsPair t p) ∧
          ∀ i, (g i).rT = buf.map (fun p => (p i).1) ∧ (g i).r2T = buf.map (fun p => (p i).2)) ∧
        ∃ st : Fin n → ShamirState n R F,
          (∀ i, ShamirState.ofPreprocessing (g i) = some (st i)) ∧ ShCorr t st) := by
  refine Ensures.mono (spec_preprocessingNew hF hb hl seed st).ensures ?_
  rintro g st' ⟨hg, ⟨buf, hbuf, hlen⟩, -⟩
  obtain ⟨s, h1, h2, -⟩ := ofPreprocessing_spec hg
  exact ⟨⟨buf, by rw [hlen]; exact divCeil_mul amount (Nat.succ_pos t), hbuf.pairs,
    fun i => ⟨hbuf.rT i, hbuf.r2T i⟩⟩, s, h1, h2⟩

/-- C37: a threshold that is too large for the number of parties is reported by every party. -/
theorem C37_threshold {t amount : Nat} (hb : n < 2 * t + 1) (seed : Fin n → Seed) (st : Fin n → S) :
    ∃ e, EnsuresE (M := M) (fun i => (preprocessingNew F (seed i) t amount :
        MPC (Fin n) S M Err (ShamirRng n R F))) st (fun r => ∀ i, r i = .error (.err e)) := by
  refine ⟨"Threshold too large for number of parties", SpecE.ensures ?_⟩
  unfold preprocessingNew
  simp only [show 2 * t + 1 > n by omega, if_true]
  exact SpecE.bail fun _ => rfl

/-- C37: later refills of the buffer: the new pairs are double sharings and the old ones stay. -/
theorem C37_refill {t amount : Nat} {g : Fin n → ShamirRng n R F} (hg : RngCorr t g)
    {buf : List (Fin n → F × F)} (hbuf : Buffered t g buf) (st : Fin n → S) :
    Ensures (M := M) (fun i => (g i).bufferTriples amount) st (fun g' _ => RngCorr t g' ∧
      ∃ new : List (Fin n → F × F), new.length = amount * (t + 1) ∧ (∀ p ∈ new, IsPair t p) ∧
        Buffered t g' (buf ++ new)) := by
  refine Ensures.mono (spec_bufferTriples (a := amount) hg st).ensures ?_
  rintro g' st' ⟨rfl, -⟩
  exact ⟨hg.after, _, freshPairs_length .., freshPairs_isPair hg, hbuf.after hg⟩

end

instance : Inhabited Demo.F7 := ⟨0⟩

theorem _root_.Verif.Demo.shamir_states : ∃ st : Fin 3 → ShamirState 3 Nat Demo.F7, ShCorr 1 st := by
  obtain ⟨g, l, h1, hg, h2⟩ := spec_preprocessingNew (M := Demo.Msg) (Seed := Nat) (R := Nat) (t := 1)
    (amount := 10) Demo.points73 (by decide) (by decide) (fun i => i.val + 5) (fun _ => ())
  obtain ⟨st, -, h, -⟩ := ofPreprocessing_spec hg
  exact ⟨st, h⟩

example : Ensures (M := Demo.Msg) (fun i => (preprocessingNew Demo.F7 (i.val + 5) 1 10 :
      MPC (Fin 3) Unit Demo.Msg Err (ShamirRng 3 Nat Demo.F7))) (fun _ => ()) (fun g _ =>
    ∃ st : Fin 3 → ShamirState 3 Nat Demo.F7,
      (∀ i, ShamirState.ofPreprocessing (g i) = some (st i)) ∧ ShCorr 1 st) :=
  (C37_setup Demo.points73 (by decide) (by decide) (fun i : Fin 3 => i.val + 5) fun _ => ()).mono
    fun _ _ h => h.2
example : ∃ e, EnsuresE (M := Demo.Msg) (fun i => (preprocessingNew Demo.F7 (i.val + 5) 2 10 :
      MPC (Fin 3) Unit Demo.Msg Err (ShamirRng 3 Nat Demo.F7))) (fun _ => ())
    (fun r => ∀ i, r i = .error (.err e)) := C37_threshold (by decide) _ _

/-! ## C35, C36 -/

section

variable [Sample R F] [Codec M (List F)]

/-- C35: multiplication. -/
theorem C35_mul {t : Nat} {st : Fin n → ShamirState n R F} (hst : ShCorr t st)
    {a b : Fin n → F} {x y : F} (ha : IsShamir F t a x) (hb : IsShamir F t b y) :
    Ensures (M := M) (fun i => Shamir.mul (a i) (b i)) st
      (fun r st' => IsShamir F t r (x * y) ∧ ShCorr t st') := (spec_mul hst ha hb).ensures

/-- C35: element-wise multiplication of vectors. -/
theorem C35_mul_vec {t : Nat} {st : Fin n → ShamirState n R F} (hst : ShCorr t st)
    {a b : Fin n → List F} {xs ys : List F} (ha : IsShamirs F t a xs) (hb : IsShamirs F t b ys) :
    Ensures (M := M) (fun i => Shamir.mulVec (a i) (b i)) st
      (fun r st' => IsShamirs F t r (List.zipWith (· * ·) xs ys) ∧ ShCorr t st') :=
  (spec_mulVec hst ha hb).ensures

/-- C35: reducing the degree of any sharing of degree `2t`, e.g. a sum of local products. -/
theorem C35_degree_reduce {t : Nat} {st : Fin n → ShamirState n R F} (hst : ShCorr t st)
    {s : Fin n → List F} {vs : List F} (h : IsShamirs F (2 * t) s vs) :
    Ensures (M := M) (fun i => degreeReduceMany (s i)) st
      (fun r st' => IsShamirs F t r vs ∧ ShCorr t st') := (spec_degreeReduceMany hst h).ensures

example : ∃ st : Fin 3 → ShamirState 3 Nat Demo.F7, ShCorr 1 st ∧
    Ensures (M := Demo.Msg) (fun i => Shamir.mul (Demo.sh3 i) (Demo.sh4 i)) st
      (fun r st' => IsShamir Demo.F7 1 r (3 * 4) ∧ ShCorr 1 st') :=
  Demo.shamir_states.imp fun _ h => ⟨h, C35_mul h Demo.isShamir_sh3 Demo.isShamir_sh4⟩

/-- C36: opening returns the value to all parties. -/
theorem C36_open [Codec M V] {t : Nat} {st : Fin n → ShamirState n R F} (hst : ShCorr t st)
    {s : Fin n → V} {v : V} (h : IsShamir F t s v) :
    Ensures (M := M) (fun i => openShare (s i)) st (fun r st' => (∀ i, r i = v) ∧ st' = st) :=
  (spec_openShare hst h).ensures.mono fun _ _ h => ⟨fun i => by rw [h.1], h.2⟩

/-- C36: opening a vector. -/
theorem C36_open_vec [Codec M (List V)] {t : Nat} {st : Fin n → ShamirState n R F} (hst : ShCorr t st)
    {s : Fin n → List V} {vs : List V} (h : IsShamirs F t s vs) :
    Ensures (M := M) (fun i => openVec (s i)) st (fun r st' => (∀ i, r i = vs) ∧ st' = st) :=
  (spec_openVec hst h).ensures.mono fun _ _ h => ⟨fun i => by rw [h.1], h.2⟩

/-- C36: opening a product. -/
theorem C36_mul_open [Codec M F] {t : Nat} {st : Fin n → ShamirState n R F} (hst : ShCorr t st)
    {a b : Fin n → F} {x y : F} (ha : IsShamir F t a x) (hb : IsShamir F t b y) :
    Ensures (M := M) (fun i => mulOpen (a i) (b i)) st
      (fun r st' => (∀ i, r i = x * y) ∧ st' = st) :=
  (spec_mulOpen hst ha hb).ensures.mono fun _ _ h => ⟨fun i => by rw [h.1], h.2⟩

/-- C36: opening products of vectors. -/
theorem C36_mul_open_vec {t : Nat} {st : Fin n → ShamirState n R F}
    (hst : ShCorr t st) {a b : Fin n → List F} {xs ys : List F} (ha : IsShamirs F t a xs)
    (hb : IsShamirs F t b ys) (hl : xs.length = ys.length) :
    Ensures (M := M) (fun i => mulOpenVec (a i) (b i)) st
      (fun r st' => (∀ i, r i = List.zipWith (· * ·) xs ys) ∧ st' = st) :=
  (spec_mulOpenVec hst ha hb hl).ensures.mono fun _ _ h => ⟨fun i => by rw [h.1], h.2⟩

example : ∃ st : Fin 3 → ShamirState 3 Nat Demo.F7, ShCorr 1 st ∧
    Ensures (M := Demo.Msg) (fun i => openVec [Demo.sh3 i, Demo.sh4 i]) st
      (fun r st' => (∀ i, r i = [3, 4]) ∧ st' = st) :=
  Demo.shamir_states.imp fun _ h => ⟨h, C36_open_vec h Demo.isShamirs_34⟩
example : ∃ st : Fin 3 → ShamirState 3 Nat Demo.F7, ShCorr 1 st ∧
    Ensures (M := Demo.Msg) (fun i => mulOpen (Demo.sh3 i) (Demo.sh4 i)) st
      (fun r st' => (∀ i, r i = 3 * 4) ∧ st' = st) :=
  Demo.shamir_states.imp fun _ h => ⟨h, C36_mul_open h Demo.isShamir_sh3 Demo.isShamir_sh4⟩

/-! ## C56 -/

/-- C56: opening a sharing tells `t` (or more) parties only the value: from their own shares and the value
everything they receive is determined. -/
theorem C56_open_partial [Codec M V] {t : Nat} {st st' : Fin n → ShamirState n R F} (hst : ShCorr t st)
    (hst' : ShCorr t st') {s s' : Fin n → V} {v : V} (h : IsShamir F t s v) (h' : IsShamir F t s' v)
    (A : Finset (Fin n)) (hA : t ≤ A.card) (he : ∀ i ∈ A, s i = s' i) :
    ∃ view : Fin n → List (Fin n × M),
      AllRuns (fun i => (openShare (s i) : ShamirM n R F M V) i (st i))
        (fun _ l => ∀ i ∈ A, l i = view i) ∧
      AllRuns (fun i => (openShare (s' i) : ShamirM n R F M V) i (st' i))
        (fun _ l => ∀ i ∈ A, l i = view i) := by
  obtain rfl := isShamir_unique hst.rng.field h h' hA he
  obtain ⟨r, hr⟩ := runs_openShare (M := M) hst s
  obtain ⟨r', hr'⟩ := runs_openShare (M := M) hst' s
  exact ⟨_, allRuns_iff.mpr ⟨_, _, hr, fun _ _ => rfl⟩, allRuns_iff.mpr ⟨_, _, hr', fun _ _ => rfl⟩⟩

end

/-- C56 is false for opening a product (`mul_open`, used by `inv` and `div`): the sharing that is opened is
the product of the two polynomials and is not randomised again. With three parties and threshold one, take
the factors `1, 6` and the factors `2, 3` of the same product `6`. Whenever the first party holds the shares
`0` and `1` of the factors, what it receives while opening the product is different in the two cases. -/
theorem C56_false_mul_open {st st' : Fin 3 → ShamirState 3 Nat Demo.F7} (hst : ShCorr 1 st)
    (hst' : ShCorr 1 st') {a b a' b' : Fin 3 → Demo.F7}
    (ha : IsShamir Demo.F7 1 a 1) (hb : IsShamir Demo.F7 1 b 6)
    (ha' : IsShamir Demo.F7 1 a' 2) (hb' : IsShamir Demo.F7 1 b' 3)
    (h0 : a 0 = 0 ∧ b 0 = 1) (h0' : a' 0 = 0 ∧ b' 0 = 1) :
    ∃ view view' : List (Fin 3 × Demo.Msg), view ≠ view' ∧
      AllRuns (fun i => (mulOpen (a i) (b i) : ShamirM 3 Nat Demo.F7 Demo.Msg Demo.F7) i (st i))
        (fun _ l => l 0 = view) ∧
      AllRuns (fun i => (mulOpen (a' i) (b' i) : ShamirM 3 Nat Demo.F7 Demo.Msg Demo.F7) i (st' i))
        (fun _ l => l 0 = view') := by
  obtain ⟨r, hr⟩ := runs_openHalf (M := Demo.Msg) hst fun i => a i * b i
  obtain ⟨r', hr'⟩ := runs_openHalf (M := Demo.Msg) hst' fun i => a' i * b' i
  refine ⟨_, _, ?_, allRuns_iff.mpr ⟨_, _, hr, rfl⟩, allRuns_iff.mpr ⟨_, _, hr', rfl⟩⟩
  have e1 : a 1 * b 1 = 4 ∧ a' 1 * b' 1 = 2 := by
    have key : ∀ {s : Fin 3 → Demo.F7} {v : Demo.F7}, IsShamir Demo.F7 1 s v →
        s 1 = v + 2 * (s 0 - v) := by
      rintro s v ⟨c, rfl, hc⟩
      rw [hc, hc]
      simp [polyAt, Finset.sum_range_succ]
    rw [key ha, key hb, key ha', key hb', h0.1, h0.2, h0'.1, h0'.2]
    decide
  intro he
  simp [List.range_succ, back, Codec.enc] at he
  rw [e1.1, e1.2] at he
  exact absurd he.2 (by decide)

theorem _root_.Verif.Demo.product_case : ∃ a b : Fin 3 → Demo.F7,
    IsShamir Demo.F7 1 a 1 ∧ IsShamir Demo.F7 1 b 6 ∧ a 0 = 0 ∧ b 0 = 1 :=
  ⟨_, _, ⟨fun k => if k = 0 then 1 else -1, rfl, fun _ => rfl⟩,
    ⟨fun k => if k = 0 then 6 else 2, rfl, fun _ => rfl⟩,
    by simp [polyAt, Finset.sum_range_succ], by simp [polyAt, Finset.sum_range_succ]; decide⟩
theorem _root_.Verif.Demo.product_case' : ∃ a b : Fin 3 → Demo.F7,
    IsShamir Demo.F7 1 a 2 ∧ IsShamir Demo.F7 1 b 3 ∧ a 0 = 0 ∧ b 0 = 1 :=
  ⟨_, _, ⟨fun k => if k = 0 then 2 else -2, rfl, fun _ => rfl⟩,
    ⟨fun k => if k = 0 then 3 else -2, rfl, fun _ => rfl⟩,
    by simp [polyAt, Finset.sum_range_succ], by simp [polyAt, Finset.sum_range_succ]; decide⟩

section

variable [Sample R F] [Codec M (List F)]

/-! ## C38 -/

/-- C38: a request gets the last buffered pair, the same one at every party, and removes it; only when the
buffer is empty a new batch of pairs is produced, as `buffer_triples` does it (C37). -/
theorem C38_get_pair {t : Nat} {st : Fin n → ShamirState n R F} (hst : ShCorr t st)
    {buf : List (Fin n → F × F)} (hb : Buffered t (fun i => (st i).rng) buf) :
    Ensures (M := M) (fun _ => getPair) st (fun r st' => IsPair t r ∧ ShCorr t st' ∧
      ∃ rest, Buffered t (fun i => (st' i).rng) rest ∧ (buf ≠ [] → buf = rest ++ [r])) := by
  refine Ensures.mono (spec_getPair hst hb).ensures ?_
  rintro r st' (⟨rest, rfl, rfl⟩ | ⟨rfl, rest, k, hk, hf, rfl⟩)
  · have hr : ∀ p ∈ rest, IsPair t p := fun p hp => hb.pairs p (by simp [hp])
    exact ⟨hb.pairs r (by simp), hst.setBuf hr, rest, ⟨fun _ => rfl, fun _ => rfl, hr⟩, fun _ => rfl⟩
  · have := freshPairs_isPair (a := k) hst.rng
    rw [hf] at this
    have hr : ∀ p ∈ rest, IsPair t p := fun p hp => this p (by simp [hp])
    exact ⟨this r (by simp), hst.refilled.setBuf hr, rest, ⟨fun _ => rfl, fun _ => rfl, hr⟩,
      fun h => absurd rfl h⟩

/-- C38: when the buffer is empty, the pair handed out is the last one of what `buffer_triples` produces
from the generators at hand, and the rest of that batch is kept. -/
theorem C38_get_pair_refill {t k : Nat} {st : Fin n → ShamirState n R F} (hst : ShCorr t st)
    (hb : Buffered t (fun i => (st i).rng) []) (hk : ∀ i, (st i).generationAmount = k) :
    ∃ g : Fin n → ShamirRng n R F,
      Ensures (M := M) (fun i => (st i).rng.bufferTriples k) st (fun g' _ => g' = g) ∧
      Ensures (M := M) (fun _ => getPair) st (fun r st' => ∃ rest : List (Fin n → F × F),
        Buffered t g (rest ++ [r]) ∧ Buffered t (fun i => (st' i).rng) rest ∧
        ∀ i, (st' i).generationAmount = 2 * k) := by
  refine ⟨_, (spec_bufferTriples (a := k) hst.rng st).ensures.mono fun _ _ h => h.1, ?_⟩
  refine Ensures.mono (spec_getPair hst hb).ensures ?_
  rintro r st' (⟨rest, h, -⟩ | ⟨-, rest, k', hk', hf, rfl⟩)
  · simp at h
  · obtain rfl : k' = k := by
      have h0 : 0 < n := by have := hst.rng.live; omega
      rw [← hk ⟨0, h0⟩, hk']
    have h1 := hb.after (a := k') hst.rng
    rw [List.nil_append, hf] at h1
    exact ⟨rest, h1, ⟨fun _ => rfl, fun _ => rfl, fun p hp => h1.pairs p (by simp [hp])⟩,
      fun i => by simp [setBuf, refilled, hk, Nat.mul_comm]⟩

/-- C38: `fork` gives the first `num` pairs to the child, and the parent keeps the others. -/
theorem C38_fork [Sample R Seed] [Seedable R Seed] {t num : Nat} {st : Fin n → ShamirState n R F}
    (hst : ShCorr t st) {buf : List (Fin n → F × F)} (hb : Buffered t (fun i => (st i).rng) buf)
    (hn : num ≤ buf.length) :
    Ensures (M := M) (fun _ => fork (Seed := Seed) num) st (fun child st' =>
      ShCorr t child ∧ ShCorr t st' ∧
      Buffered t (fun i => (child i).rng) (buf.take num) ∧
      Buffered t (fun i => (st' i).rng) (buf.drop num)) := by
  refine Ensures.mono (spec_fork (Seed := Seed) hb hn).ensures ?_
  rintro r st' ⟨rfl, rfl⟩
  have pc : ∀ p ∈ buf.take num, IsPair t p := fun p hp => hb.pairs p (List.mem_of_mem_take hp)
  have pp : ∀ p ∈ buf.drop num, IsPair t p := fun p hp => hb.pairs p (List.mem_of_mem_drop hp)
  exact ⟨hst.forkChild pc, hst.forkParent pp, ⟨fun _ => rfl, fun _ => rfl, pc⟩,
    ⟨fun _ => rfl, fun _ => rfl, pp⟩⟩

/-- C38: `fork` with more pairs than there are fails at every party. -/
theorem C38_fork_too_large [Sample R Seed] [Seedable R Seed] {t num : Nat}
    {st : Fin n → ShamirState n R F} {buf : List (Fin n → F × F)}
    (hb : Buffered t (fun i => (st i).rng) buf) (hn : buf.length < num) :
    ∃ e, EnsuresE (M := M) (fun _ => fork (Seed := Seed) num) st (fun r => ∀ i, r i = .error e) :=
  ⟨_, (spec_fork_fails hb hn).ensures⟩

/-- C38: every history of requests, refills and forks. Serving the history from the common stock `buf`,
with some batches of double sharings as refills, tells what every party gets: party `i` gets its shares
of exactly the pairs handed out by `serve`, and is left with its shares of the pairs left over there;
all parties fail together exactly when a fork overdraws. By `serve_perm`, no pair is handed out twice. -/
theorem C38_history [Sample R Seed] [Seedable R Seed] {t : Nat} {st : Fin n → ShamirState n R F}
    (hst : ShCorr t st) {buf : List (Fin n → F × F)} (hb : Buffered t (fun i => (st i).rng) buf)
    (h : Hist) :
    EnsuresE (M := M) (fun _ => runHist Seed h) st (fun r =>
      ∃ batches : List (List (Fin n → F × F)), (∀ b ∈ batches, ∀ p ∈ b, IsPair t p) ∧
        match serve h buf batches with
        | .ok (out, left, rest) => rest = [] ∧ (out ++ left).Perm (buf ++ batches.flatten) ∧
            ∃ st' : Fin n → ShamirState n R F, ∀ i,
              r i = .ok ((out.map (· i), left.map (· i)), st' i)
        | .error .overdrawn => ∀ i, r i = .error (.panic "not enough corr rand pairs")
        | .error .dry => False) := by
  refine ((spec_runHist hst hb h).mono ?_).ensures
  rintro r ⟨batches, hbs, hr⟩
  refine ⟨batches, hbs, ?_⟩
  cases e : serve h buf batches with
  | ok v =>
    obtain ⟨out, left, rest⟩ := v
    rw [e] at hr
    obtain ⟨rfl, st', hr⟩ := hr
    have := serve_perm e
    exact ⟨rfl, by simpa using this, st', hr⟩
  | error u => rw [e] at hr; cases u <;> exact hr

/-- C38: while the stock lasts, nothing is refilled, and the pairs come from the stock alone. -/
theorem C38_history_stock [Sample R Seed] [Seedable R Seed] {t : Nat} {st : Fin n → ShamirState n R F}
    (hst : ShCorr t st) {buf : List (Fin n → F × F)} (hb : Buffered t (fun i => (st i).rng) buf)
    (h : Hist) {out left : List (Fin n → F × F)} (hs : serve h buf [] = .ok (out, left, [])) :
    (out ++ left).Perm buf ∧
    Ensures (M := M) (fun _ => runHist Seed h) st (fun r _ =>
      ∀ i, r i = (out.map (· i), left.map (· i))) := by
  refine ⟨by simpa using serve_perm hs, ?_⟩
  have key := spec_runHist (M := M) (Seed := Seed) hst hb h
  obtain ⟨r, l, hr, batches, -, hres⟩ := key
  have h2 := (serve_append batches).1 _ _ _ hs
  rw [List.nil_append] at h2
  rw [h2] at hres
  obtain ⟨rfl, st', hres⟩ := hres
  refine ensures_iff.mpr ⟨fun i => ((out.map (· i), left.map (· i)), st' i), l, ?_, fun _ => rfl⟩
  obtain rfl : r = fun i => .ok ((out.map (· i), left.map (· i)), st' i) := funext hres
  exact hr

/-- Three double sharings for three parties with `t = 1`: of `0`, of `3` and of `4`. -/
def _root_.Verif.Demo.pairs : List (Fin 3 → Demo.F7 × Demo.F7) :=
  [fun _ => (0, 0), fun i => (Demo.sh3 i, 3), fun i => (Demo.sh4 i, 4)]

theorem _root_.Verif.Demo.pairs_isPair : ∀ p ∈ Demo.pairs, IsPair 1 p := by
  simp only [Demo.pairs, List.mem_cons, List.not_mem_nil, or_false]
  rintro p (rfl | rfl | rfl)
  · exact ⟨0, .const 1 0, .const 2 0⟩
  · exact ⟨3, Demo.isShamir_sh3, .const 2 3⟩
  · exact ⟨4, Demo.isShamir_sh4, .const 2 4⟩

theorem _root_.Verif.Demo.stocked_states : ∃ st : Fin 3 → ShamirState 3 Nat Demo.F7,
    ShCorr 1 st ∧ Buffered 1 (fun i => (st i).rng) Demo.pairs := by
  obtain ⟨st, h⟩ := Demo.shamir_states
  exact ⟨_, h.setBuf Demo.pairs_isPair, ⟨fun _ => rfl, fun _ => rfl, Demo.pairs_isPair⟩⟩

example : ∃ st : Fin 3 → ShamirState 3 Nat Demo.F7,
    Ensures (M := Demo.Msg) (fun _ => runHist Nat (.fork 2 (.take (.take .done)) (.take .done))) st
      (fun r _ => ∀ i, r i = ([(Demo.sh3 i, 3), (0, 0), (Demo.sh4 i, 4)], [])) := by
  obtain ⟨st, h, hb⟩ := Demo.stocked_states
  exact ⟨st, (C38_history_stock h hb _ (out := [fun i => (Demo.sh3 i, 3), fun _ => (0, 0),
    fun i => (Demo.sh4 i, 4)]) (left := []) rfl).2.mono fun r _ h => h⟩
example : ∃ st : Fin 3 → ShamirState 3 Nat Demo.F7,
    ∃ e, EnsuresE (M := Demo.Msg) (fun _ => fork (Seed := Nat) 4) st (fun r => ∀ i, r i = .error e) := by
  obtain ⟨st, h, hb⟩ := Demo.stocked_states
  exact ⟨st, C38_fork_too_large hb (by decide)⟩

/-! ## C55 -/

variable [DecidableEq F]

/-- C55: inversion with the next buffered pair as mask. All parties fail alike exactly when the value
is zero or the random mask happens to be zero; otherwise they hold a sharing of the inverse. -/
theorem C55_inv [Codec M F] {t : Nat} {st : Fin n → ShamirState n R F} (hst : ShCorr t st)
    {rest : List (Fin n → F × F)} {p : Fin n → F × F}
    (hb : Buffered t (fun i => (st i).rng) (rest ++ [p])) {ρ : F}
    (hp : IsShamir F t (fun i => (p i).1) ρ) {a : Fin n → F} {x : F} (ha : IsShamir F t a x) :
    EnsuresE (M := M) (fun i => Shamir.inv (a i)) st (fun r =>
      ((x = 0 ∨ ρ = 0) ∧ ∃ e, ∀ i, r i = .error (.err e)) ∨
      (x ≠ 0 ∧ ρ ≠ 0 ∧ ∃ v st', (∀ i, r i = .ok (v i, st' i)) ∧ IsShamir F t v x⁻¹ ∧ ShCorr t st')) := by
  refine ((spec_inv_of (good := fun ρ' => ρ' = ρ) ((spec_rand_good hst hb rfl).mono fun r st' h =>
    ⟨⟨ρ, by rw [h.1]; exact hp, rfl⟩, h.2⟩) ha).mono ?_).ensures
  rintro r (⟨e, h, ρ', rfl, h0⟩ | ⟨v, st', h, h1, h2, h3, ρ', rfl, h0⟩)
  · exact Or.inl ⟨mul_eq_zero.mp h0, e, h⟩
  · exact Or.inr ⟨h1, right_ne_zero_of_mul h0, v, st', h, h2, h3⟩

/-- C55: inversion from any reachable state: never a wrong result, and no party is left behind. -/
theorem C55_inv_any [Codec M F] {t : Nat} {st : Fin n → ShamirState n R F} (hst : ShCorr t st)
    {a : Fin n → F} {x : F} (ha : IsShamir F t a x) :
    EnsuresE (M := M) (fun i => Shamir.inv (a i)) st (fun r =>
      (∃ e, ∀ i, r i = .error (.err e)) ∨
      (x ≠ 0 ∧ ∃ v st', (∀ i, r i = .ok (v i, st' i)) ∧ IsShamir F t v x⁻¹ ∧ ShCorr t st')) := by
  refine ((spec_inv hst ha).mono ?_).ensures
  rintro r (⟨e, h, -⟩ | ⟨v, st', h, h1, h2, h3⟩)
  · exact Or.inl ⟨e, h⟩
  · exact Or.inr ⟨h1, v, st', h, h2, h3⟩

/-- C55: batch inversion. -/
theorem C55_inv_vec {t : Nat} {st : Fin n → ShamirState n R F} (hst : ShCorr t st)
    {a : Fin n → List F} {xs : List F} (ha : IsShamirs F t a xs) :
    EnsuresE (M := M) (fun i => invVec (a i)) st (fun r =>
      (∃ e, ∀ i, r i = .error (.err e)) ∨
      (0 ∉ xs ∧ ∃ v st', (∀ i, r i = .ok (v i, st' i)) ∧ IsShamirs F t v (xs.map (·⁻¹)) ∧
        ShCorr t st')) := by
  refine ((spec_invVec hst ha).mono ?_).ensures
  rintro r (⟨e, h, -⟩ | ⟨v, st', h, h1, h2, h3⟩)
  · exact Or.inl ⟨e, h⟩
  · exact Or.inr ⟨h1, v, st', h, h2, h3⟩

/-- C55: division of shared values, and of a public value by a shared one. -/
theorem C55_div [Codec M F] {t : Nat} {st : Fin n → ShamirState n R F} (hst : ShCorr t st)
    {a b : Fin n → F} {x y : F} (ha : IsShamir F t a x) (hb : IsShamir F t b y) (p : F) :
    EnsuresE (M := M) (fun i => Shamir.div (a i) (b i)) st (fun r =>
      (∃ e, ∀ i, r i = .error (.err e)) ∨
      (y ≠ 0 ∧ ∃ v st', (∀ i, r i = .ok (v i, st' i)) ∧ IsShamir F t v (x / y) ∧ ShCorr t st')) ∧
    EnsuresE (M := M) (fun i => divPublicByShared p (b i)) st (fun r =>
      (∃ e, ∀ i, r i = .error (.err e)) ∨
      (y ≠ 0 ∧ ∃ v st', (∀ i, r i = .ok (v i, st' i)) ∧ IsShamir F t v (p / y) ∧ ShCorr t st')) := by
  constructor
  · refine ((spec_div hst ha hb).mono ?_).ensures
    rintro r (⟨e, h, -⟩ | ⟨v, st', h, h1, h2, h3⟩)
    · exact Or.inl ⟨e, h⟩
    · exact Or.inr ⟨h1, v, st', h, h2, h3⟩
  · refine ((spec_divPublicByShared (x := p) hst hb).mono ?_).ensures
    rintro r (⟨e, h, -⟩ | ⟨v, st', h, h1, h2, h3⟩)
    · exact Or.inl ⟨e, h⟩
    · exact Or.inr ⟨h1, v, st', h, h2, h3⟩

example : ∃ st : Fin 3 → ShamirState 3 Nat Demo.F7,
    EnsuresE (M := Demo.Msg) (fun i => Shamir.inv (Demo.sh3 i)) st (fun r =>
      ∃ v st', (∀ i, r i = .ok (v i, st' i)) ∧ IsShamir Demo.F7 1 v 3⁻¹ ∧ ShCorr 1 st') := by
  obtain ⟨st, h, hb⟩ := Demo.stocked_states
  refine ⟨st, ensuresE_iff.mpr ((ensuresE_iff.mp (C55_inv (M := Demo.Msg) (rest := Demo.pairs.take 2)
    (p := fun i => (Demo.sh4 i, 4)) h hb Demo.isShamir_sh4 Demo.isShamir_sh3)).mono ?_)⟩
  rintro r (⟨h0, -⟩ | ⟨-, -, h⟩)
  · exact absurd h0 (by decide)
  · exact h

end

end Verif.Props
