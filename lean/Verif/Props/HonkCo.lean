import Verif.Honk.CoOinkDrivers
import Verif.Props.HonkOink
import Verif.Props.HonkLookup
import Verif.Shamir.SetupLemmas

/-!
# The collaborative Oink prover (C110, C111, C112)
-/

namespace Verif.Honk

open Plonk (DrawsZero)

section

variable {F : Type} [Field F] [DecidableEq F]

/-! ## C110: memory records -/

/-- In the clear, the fourth wire gets the records: the reads with flag zero and the writes with flag one. -/
theorem C110_plain (η : Eta F) {size : Nat} (w : Fin 4 → Nat → F) {reads writes : List Nat} (h : ∀ i ∈ reads ++ writes, i < size) :
    computeW4 η size reads writes w = .ok (withRecords η w (reads.map (·, 0) ++ writes.map (·, 1))) :=
  computeW4_ok η w h

/-- On Rep3 shares the parties get shares of the same column.  Here records may also have shared flags. -/
theorem C110_rep3 {R M : Type} [Sample R F] [Codec M (List F)] (η : Eta F) {size : Nat} {w : PartyID → Fin 4 → Nat → Share F}
    {v : Fin 4 → Nat → F} (hw : ∀ j row, IsShare (fun i => w i j row) (v j row)) {reads writes rows : List Nat}
    (h : ∀ i ∈ reads ++ writes ++ rows, i < size) {s : PartyID → List (Share F)} {flags : List F} (hs : IsShares s flags) :
    ∃ z : PartyID → Nat → Share F, (∀ i, (rep3Driver (R := R) (M := M) i).w4 η size reads writes (rows.zip (s i)) (w i) = .ok (z i)) ∧
      ∀ row, IsShare (fun i => z i row)
        (withRecords η v (reads.map (·, 0) ++ writes.map (·, 1) ++ rows.zip flags) row) :=
  coW4_ok (d := fun i => rep3Driver (R := R) (M := M) i) Plonk.linear_rep3 η hw h hs

/-- The same on Shamir shares. -/
theorem C110_shamir {n t : Nat} {R M : Type} [Sample R F] [Codec M (List F)] (η : Eta F) {size : Nat} {w : Fin n → Fin 4 → Nat → F}
    {v : Fin 4 → Nat → F} (hw : ∀ j row, IsShamir F t (fun i => w i j row) (v j row)) {reads writes rows : List Nat}
    (h : ∀ i ∈ reads ++ writes ++ rows, i < size) {s : Fin n → List F} {flags : List F} (hs : IsShamirs F t s flags) :
    ∃ z : Fin n → Nat → F, (∀ i, (shamirDriver (n := n) (R := R) (M := M)).w4 η size reads writes (rows.zip (s i)) (w i) = .ok (z i)) ∧
      ∀ row, IsShamir F t (fun i => z i row)
        (withRecords η v (reads.map (·, 0) ++ writes.map (·, 1) ++ rows.zip flags) row) :=
  coW4_ok (d := fun _ => shamirDriver (n := n) (R := R) (M := M)) Plonk.linear_shamir η hw h hs

/-! ## C111: the inverses of the lookup argument -/

/-- From Rep3 shares of the wires and of the tags, which are bits, the parties get shares of the inverses that the prover in the clear
computes, if no random value is zero. -/
theorem C111_rep3 {R M : Type} [Sample R F] [Codec M (List F)] (β γ : F) (size : Nat) {q : Col → Nat → F}
    {e : PartyID → Col → Nat → Share F} {table : Col → Nat → F} (hq : ∀ c ∈ lookupPublic, q c = table c)
    (he : ∀ c ∈ lookupShared, ∀ row, IsShare (fun i => e i c row) (table c row))
    (hsel : ∀ i < size, table .qLookup i = 0 ∨ table .qLookup i = 1)
    (htag : ∀ i < size, table .lookupReadTags i = 0 ∨ table .lookupReadTags i = 1) {ty : A2BType} {st : PartyID → Rep3State R}
    (hst : Corr ty st) (h0 : ¬ DrawsZero F st (3 * size)) :
    Ensures (M := M) (fun i => (rep3Driver i).lookupInverses β γ size q (e i)) st fun r _ =>
      IsShares r ((List.range size).map (lookupInverses β γ table)) := by
  have := (cosim_rep3 (M := M) (ty := ty) (3 * size) (B := DrawsZero F st (3 * size)) id).lookupInverses β γ size hq he hsel htag
    0 0 st ⟨hst, 0, rfl, by omega⟩
  obtain ⟨r, l, hr, h⟩ := this
  rcases h with ⟨_, _, h⟩ | ⟨v, s, hv, h, -⟩
  · exact absurd h h0
  · refine Spec.ensures ⟨fun i => (v i, s i), l, ?_, h.resolve_left h0⟩
    rwa [show r = fun i => .ok (v i, s i) from funext hv] at hr

/-- The same on Shamir shares. -/
theorem C111_shamir {n t : Nat} {R M : Type} [Sample R F] [Codec M (List F)] (β γ : F) (size : Nat) {q : Col → Nat → F}
    {e : Fin n → Col → Nat → F} {table : Col → Nat → F} (hq : ∀ c ∈ lookupPublic, q c = table c)
    (he : ∀ c ∈ lookupShared, ∀ row, IsShamir F t (fun i => e i c row) (table c row))
    (hsel : ∀ i < size, table .qLookup i = 0 ∨ table .qLookup i = 1)
    (htag : ∀ i < size, table .lookupReadTags i = 0 ∨ table .lookupReadTags i = 1) {st : Fin n → Shamir.ShamirState n R F}
    (hst : Shamir.ShCorr t st) {pairs : List (Fin n → F × F)} (hp : Shamir.Buffered t (fun i => (st i).rng) pairs)
    (hl : 3 * size ≤ pairs.length) (h0 : ¬ ∃ p ∈ pairs, IsShamir F t (fun i => (p i).1) 0) :
    Ensures (M := M) (fun i => (shamirDriver (n := n)).lookupInverses β γ size q (e i)) st fun r _ =>
      IsShamirs F t r ((List.range size).map (lookupInverses β γ table)) := by
  have := (cosim_shamir (M := M) (R := R) (t := t) (buf₀ := pairs)).lookupInverses β γ size hq he hsel htag 0 0 st
    ⟨hst, pairs, hp, by omega, fun _ h => h⟩
  obtain ⟨r, l, hr, h⟩ := this
  rcases h with ⟨_, _, h⟩ | ⟨v, s, hv, h, -⟩
  · exact absurd h h0
  · refine Spec.ensures ⟨fun i => (v i, s i), l, ?_, h.resolve_left h0⟩
    rwa [show r = fun i => .ok (v i, s i) from funext hv] at hr

/-- Why the random values matter: if the first one is zero, the first entry is replaced by zero, and no party notices. -/
theorem C111_zero_random {R M : Type} [Sample R F] [Codec M (List F)] {a : PartyID → Share F} {x : F} (ha : IsShare a x)
    {ty : A2BType} {st : PartyID → Rep3State R} (hst : Corr ty st) (h0 : Rep3.randValue F st = 0) :
    Ensures (M := M) (fun i => (rep3Driver i).invLeaking [a i]) st fun r _ => IsShares r [0] := by
  refine Spec.ensures ?_
  unfold CoDriver.invLeaking
  refine Spec.bind (Plonk.spec_rands_draws 1 hst) ?_
  rintro r s ⟨hr, hs, -⟩
  refine Spec.bind (Plonk.spec_mulOpenVec_draws (x := [x]) (Cols.cons ha Cols.nil) hr (by simp) hs) ?_
  rintro _ s' ⟨rfl, -, -⟩
  have e : Rep3.randValues F 1 st = [0] := by simp [Rep3.randValues, h0]
  have hlen := Cols.length hr
  rw [e] at hlen ⊢
  refine Spec.pure ?_
  have : (fun i => List.zipWith (fun (r : Share F) (y : F) => if y = 0 then 0 else y⁻¹ • r) (r i)
      (List.zipWith (· * ·) [x] [0])) = fun _ => [(0 : Share F)] := by
    funext i
    obtain ⟨y, hy⟩ := List.length_eq_one_iff.mp (hlen i)
    rw [hy]; simp
  rw [this]
  exact Cols.cons IsShare.zero Cols.nil

/-! ## C112: the permutation column -/

theorem rows_of_key {c : Builder F} {key : Key F} (h : createKey c = .ok key) (hne : c.rows ≠ []) :
    ((List.range ((if key.active.idxs.length > 0 then key.active.idxs.length else key.finalActive + 1) - 1)).mapM
      (fun i => if key.active.idxs.length > 0 then index key.active.idxs i else Except.ok i) =
        .ok (List.range' 1 (c.rows.length - 1))) ∧
    (List.range ((if key.active.idxs.length > 0 then key.active.idxs.length else key.finalActive + 1) - 1)).mapM
      (fun i => if key.active.idxs.length > 0 then index key.active.idxs (i + 1) else Except.ok (i + 1)) =
        .ok ((List.range (c.rows.length - 1)).map (· + 2)) := by
  obtain ⟨s, d, hk⟩ := createKey_ok h
  have hN : 0 < c.rows.length := List.length_pos_of_ne_nil hne
  generalize hNe : c.rows.length = N at *
  have hidx : ∀ i < N, index key.active.idxs i = .ok (1 + i) := by
    intro i hi
    rw [index, hk.idxs, hNe, List.getElem?_range' hi]; simp
  have hlen : key.active.idxs.length = N := by rw [hk.idxs, hNe, List.length_range']
  rw [hlen, if_pos hN]
  refine ⟨?_, ?_⟩
  · rw [List.range'_eq_map_range]
    refine mapM_ok _ fun i hi => ?_
    rw [if_pos hN, hidx i (by rw [List.mem_range] at hi; omega)]
  · refine mapM_ok _ fun i hi => ?_
    rw [if_pos hN, hidx (i + 1) (by rw [List.mem_range] at hi; omega)]
    congr 1; omega

theorem row_ne_zero {key : Key F} {v : Fin 4 → Nat → F} {β γ : F} {N : Nat}
    (hden : ∀ i, 1 ≤ i → i < N → ∀ j, v j i + key.sigma j i * β + γ ≠ 0) :
    ∀ k ∈ List.range' 1 (N - 1), rowProduct β γ v key.sigma k ≠ 0 := by
  intro k hk
  rw [List.mem_range'_1] at hk
  have h := hden k hk.1 (by omega)
  exact mul_ne_zero (mul_ne_zero (mul_ne_zero (h 0) (h 1)) (h 2)) (h 3)

/-- From Rep3 shares of the wires the parties get shares of the permutation column that the prover in the clear computes, if no factor
of a denominator is zero; or all parties return an error, and then one of their random values was zero. -/
theorem C112_rep3 {R M : Type} [Sample R F] [Codec M (List F)] {c : Builder F} {key : Key F} (h : createKey c = .ok key)
    (hne : c.rows ≠ []) {w : PartyID → Fin 4 → Nat → Share F} {v : Fin 4 → Nat → F}
    (hw : ∀ j row, IsShare (fun i => w i j row) (v j row)) {β γ : F}
    (hden : ∀ i, 1 ≤ i → i < c.rows.length → ∀ j, v j i + key.sigma j i * β + γ ≠ 0)
    {ty : A2BType} {st : PartyID → Rep3State R} (hst : Corr ty st) :
    ∃ z, grandProduct key v β γ = .ok z ∧
      EnsuresE (M := M) (fun i => (rep3Driver i).grandProduct key (w i) β γ) st
        (AllOrNone (DrawsZero F st (21 * (c.rows.length - 1) + 6)) fun r _ => ∀ row, IsShare (fun i => r i row) (z row)) := by
  obtain ⟨z, hz⟩ := C105_runs h hne v β γ
  refine ⟨z, hz, SpecE.ensures ?_⟩
  have := (cosim_rep3 (M := M) (ty := ty) (21 * (c.rows.length - 1) + 6) (B := DrawsZero F st (21 * (c.rows.length - 1) + 6))
    id).grandProduct hw β γ hz (rows_of_key h hne).1 (row_ne_zero hden) 0 0 st
      ⟨hst, 0, rfl, by rw [List.length_range']; omega⟩
  exact this.mono fun _ hr => Plonk.allOrNone_mono hr id fun _ _ hv => hv.1

/-- The same on Shamir shares; the error occurs only if one of the preprocessed pairs is a sharing of zero. -/
theorem C112_shamir {n t : Nat} {R M : Type} [Sample R F] [Codec M (List F)] {c : Builder F} {key : Key F} (h : createKey c = .ok key)
    (hne : c.rows ≠ []) {w : Fin n → Fin 4 → Nat → F} {v : Fin 4 → Nat → F}
    (hw : ∀ j row, IsShamir F t (fun i => w i j row) (v j row)) {β γ : F}
    (hden : ∀ i, 1 ≤ i → i < c.rows.length → ∀ j, v j i + key.sigma j i * β + γ ≠ 0)
    {st : Fin n → Shamir.ShamirState n R F} (hst : Shamir.ShCorr t st) {pairs : List (Fin n → F × F)}
    (hp : Shamir.Buffered t (fun i => (st i).rng) pairs) (hl : 21 * (c.rows.length - 1) + 6 ≤ pairs.length) :
    ∃ z, grandProduct key v β γ = .ok z ∧
      EnsuresE (M := M) (fun i => (shamirDriver (n := n)).grandProduct key (w i) β γ) st
        (AllOrNone (∃ p ∈ pairs, IsShamir F t (fun i => (p i).1) 0) fun r _ => ∀ row, IsShamir F t (fun i => r i row) (z row)) := by
  obtain ⟨z, hz⟩ := C105_runs h hne v β γ
  refine ⟨z, hz, SpecE.ensures ?_⟩
  have := (cosim_shamir (M := M) (R := R) (t := t) (buf₀ := pairs)).grandProduct hw β γ hz (rows_of_key h hne).1
    (row_ne_zero hden) 0 0 st ⟨hst, pairs, hp, by rw [List.length_range']; omega, fun _ h => h⟩
  exact this.mono fun _ hr => Plonk.allOrNone_mono hr id fun _ _ hv => hv.1

/-- If a factor of a denominator is zero, the prover in the clear returns a column, but all Rep3 parties return an error. -/
theorem C112_zero_denominator {R M : Type} [Sample R F] [Codec M (List F)] {c : Builder F} {key : Key F} (h : createKey c = .ok key)
    (hne : c.rows ≠ []) {w : PartyID → Fin 4 → Nat → Share F} {v : Fin 4 → Nat → F}
    (hw : ∀ j row, IsShare (fun i => w i j row) (v j row)) {β γ : F} {row : Nat} (h1 : 1 ≤ row) (h2 : row < c.rows.length) {j : Fin 4}
    (h0 : v j row + key.sigma j row * β + γ = 0) {ty : A2BType} {st : PartyID → Rep3State R} (hst : Corr ty st) :
    (∃ z, grandProduct key v β γ = .ok z) ∧
      EnsuresE (M := M) (fun i => (rep3Driver i).grandProduct key (w i) β γ) st fun r => ∃ e, ∀ i, r i = .error (.err e) := by
  refine ⟨C105_runs h hne v β γ, SpecE.ensures ?_⟩
  have hr : rowProduct β γ v key.sigma row = 0 := by
    unfold rowProduct
    fin_cases j <;> simp_all
  have hz : ∀ (l : List F) (acc : F), 0 ∈ l → 0 ∈ Plonk.prefixProducts acc l := by
    intro l
    induction l with
    | nil => simp
    | cons a l ih =>
      intro acc hm
      rw [Plonk.prefixProducts, List.mem_cons]
      rcases List.mem_cons.mp hm with rfl | hm
      · exact .inl (mul_zero _).symm
      · exact .inr (ih _ hm)
  obtain ⟨r1, r2⟩ := rows_of_key h hne
  have := (cosim_rep3 (M := M) (ty := ty) (st₀ := st) (21 * (c.rows.length - 1) + 6) (B := True) fun _ => trivial).grandProduct_zero
    trivial hw β γ r1 r2 (hz _ _ (List.mem_map.mpr ⟨row, by rw [List.mem_range'_1]; omega, hr⟩)) 0 0 st
      ⟨hst, 0, rfl, by rw [List.length_range']; omega⟩
  refine this.mono ?_
  rintro r (⟨e, he, -⟩ | ⟨_, _, _, h, -⟩)
  · exact ⟨e, he⟩
  · exact h.elim

end

/-! ## A concrete case -/

namespace CoDemo

open OinkDemo

/-- A generator that always gives one. -/
inductive Ones where
  | ones

/-- A generator that always gives zero. -/
inductive Zeros where
  | zeros

instance onesQ : Sample Ones P := ⟨fun r => (1, r)⟩
instance zerosQ : Sample Zeros P := ⟨fun r => (0, r)⟩
instance onesSeedQ : Seedable Ones Nat := ⟨fun _ => .ones⟩
instance onesNatQ : Sample Ones Nat := ⟨fun r => (1, r)⟩

/-- What is sent. -/
inductive QMsg where
  | f (x : List P)
  | n (x : List Nat)

instance qmsgF : Codec QMsg (List P) := ⟨.f, fun | .f x => some x | _ => none, fun _ => rfl⟩
instance qmsgN : Codec QMsg (List Nat) := ⟨.n, fun | .n x => some x | _ => none, fun _ => rfl⟩

def onesStates (i : PartyID) : Rep3State Ones :=
  ⟨i, ⟨⟨.ones, .ones⟩, ⟨.ones, .ones, some .ones⟩, ⟨.ones, .ones, some .ones⟩⟩, .ones, .direct⟩

theorem corr_ones : Corr .direct onesStates := by
  constructor <;> (try intro i) <;> rfl

theorem ones_draws (n : Nat) : ¬ DrawsZero P onesStates n := by
  rintro ⟨k, -, h⟩
  exact absurd h (show (1 + 1 + 1 : P) ≠ 0 by decide +kernel)

def zerosStates (i : PartyID) : Rep3State Zeros :=
  ⟨i, ⟨⟨.zeros, .zeros⟩, ⟨.zeros, .zeros, some .zeros⟩, ⟨.zeros, .zeros, some .zeros⟩⟩, .zeros, .direct⟩

theorem corr_zeros : Corr .direct zerosStates := by
  constructor <;> (try intro i) <;> rfl

/-- Shares of a value: the party `ID0` has it, or the parties have it split. -/
def shareOf (v : P) (i : PartyID) : Share P := Rep3.addPublic (Rep3.promoteToTrivialShare i (v - 5)) 5 i

theorem isShare_shareOf (v : P) : IsShare (shareOf v) v := by
  have := (IsShare.promote (v - 5)).addPublic 5
  rwa [sub_add_cancel] at this

theorem isShamir_const (v : P) : IsShamir (n := 3) P 1 (fun _ => v) v := IsShamir.const 1 v

theorem points : PointsDistinct P 3 := by
  intro i j _ _ h
  exact Nat.cast_injective h

/-- Pairs none of which shares zero. -/
theorem shamirStates (m : Nat) : ∃ (st : Fin 3 → Shamir.ShamirState 3 Ones P) (pairs : List (Fin 3 → P × P)),
    Shamir.ShCorr 1 st ∧ Shamir.Buffered 1 (fun i => (st i).rng) pairs ∧ m ≤ pairs.length ∧
    ¬ ∃ q ∈ pairs, IsShamir P 1 (fun i => (q i).1) 0 := by
  obtain ⟨g, l, h1, hg, h2⟩ := Shamir.spec_preprocessingNew (M := QMsg) (Seed := Nat) (R := Ones) (F := P) (t := 1)
    (amount := 10) points (by decide) (by decide) (fun i => i.val + 5) (fun _ => ())
  obtain ⟨st, -, h, -⟩ := Shamir.ofPreprocessing_spec hg
  have hp : ∀ p ∈ List.replicate m (fun _ : Fin 3 => ((1, 1) : P × P)), IsPair 1 p := by
    intro p hp
    rw [List.eq_of_mem_replicate hp]
    exact ⟨1, IsShamir.const _ _, IsShamir.const _ _⟩
  refine ⟨Shamir.setBuf st (List.replicate m fun _ => (1, 1)), _, h.setBuf hp,
    ⟨fun _ => rfl, fun _ => rfl, hp⟩, by rw [List.length_replicate], ?_⟩
  rintro ⟨q, hq, h0⟩
  rw [List.eq_of_mem_replicate hq] at h0
  obtain ⟨c, hc, hs⟩ := h0
  have h1 := hs 0
  have h2 := hs 1
  simp only [polyAt, Finset.sum_range_succ, Finset.sum_range_zero, hc] at h1 h2
  norm_num at h1 h2
  rw [← h1] at h2
  norm_num at h2

/-- The wires. -/
def wires : Fin 4 → Nat → P := fun j i => ((j.val + 2) * (i + 1) : Nat)

/-- Row `2` is read, row `4` is written, and in row `5` it is secret that this is a write. -/
example : computeW4 ⟨7, 11, 13⟩ 8 [2] [4] wires = .ok (withRecords ⟨7, 11, 13⟩ wires [(2, 0), (4, 1)]) :=
  C110_plain _ wires (by decide)
example := C110_rep3 (R := Ones) (M := QMsg) ⟨7, 11, 13⟩ (size := 8) (w := fun i j row => shareOf (wires j row) i) (v := wires)
  (fun _ _ => isShare_shareOf _) (reads := [2]) (writes := [4]) (rows := [5]) (by decide)
  (s := fun i => [shareOf 1 i]) (flags := [1]) (Cols.cons (isShare_shareOf 1) Cols.nil)
example := C110_shamir (R := Ones) (M := QMsg) ⟨7, 11, 13⟩ (size := 8) (w := fun _ => wires) (v := wires)
  (fun _ _ => isShamir_const _) (reads := [2]) (writes := [4]) (rows := [5]) (by decide)
  (s := fun _ => [1]) (flags := [1]) (Cols.cons (isShamir_const 1) Cols.nil)
example : withRecords ⟨7, 11, 13⟩ wires [(2, 0), (4, 1), (5, 1)] 5 = 30 + (12 * 7 + 18 * 11 + 24 * 13 + 1) := by decide +kernel

/-- The hypotheses of C111 hold for the table of the lookup example. -/
example := C111_rep3 (M := QMsg) 3 11 8 (q := LookupDemo.table) (e := fun i c row => shareOf (LookupDemo.table c row) i)
  (table := LookupDemo.table) (fun _ _ => rfl) (fun _ _ _ => isShare_shareOf _) (by decide +kernel) (by decide +kernel) corr_ones
  (ones_draws _)
example := (shamirStates 24).imp fun _ h => h.imp fun _ h => C111_shamir (M := QMsg) 3 11 8 (q := LookupDemo.table)
  (e := fun _ => LookupDemo.table) (table := LookupDemo.table) (fun _ _ => rfl) (fun _ _ _ => isShamir_const _)
  (by decide +kernel) (by decide +kernel) h.1 h.2.1 h.2.2.1 h.2.2.2

/-- A wrong inverse. -/
example := C111_zero_random (M := QMsg) (isShare_shareOf 2) corr_zeros (show (0 + 0 + 0 : P) = 0 by decide +kernel)

/-- The hypotheses of C112 hold for the circuit of the permutation example. -/
example := And.intro (ones_draws (21 * (demo.rows.length - 1) + 6)) <| C112_rep3 (M := QMsg) demo_ok (by decide) (w := fun i j row => shareOf (demoKey.wires j row) i)
    (fun _ _ => isShare_shareOf _)
    (fun i h1 h2 => (by decide +kernel : ∀ i < 4, 1 ≤ i → ∀ j, demoKey.wires j i + demoKey.sigma j i * 3 + 11 ≠ 0) i h2 h1)
    corr_ones
example := (shamirStates (21 * 3 + 6)).imp fun _ h => h.imp fun _ h => And.intro h.2.2.2 <|
  C112_shamir (M := QMsg) demo_ok (by decide) (w := fun _ => demoKey.wires) (fun _ _ => isShamir_const _)
    (fun i h1 h2 => (by decide +kernel : ∀ i < 4, 1 ≤ i → ∀ j, demoKey.wires j i + demoKey.sigma j i * 3 + 11 ≠ 0) i h2 h1)
    h.1 h.2.1 h.2.2.1
example := C112_zero_denominator (M := QMsg) (R := Ones) demo_ok (by decide) (w := fun i j row => shareOf (demoKey.wires j row) i)
  (fun _ _ => isShare_shareOf _) (β := 3) (γ := -(demoKey.wires 0 2 + demoKey.sigma 0 2 * 3)) (row := 2) (by decide) (by decide)
  (j := 0) (add_neg_cancel _) corr_ones

end CoDemo

end Verif.Honk
