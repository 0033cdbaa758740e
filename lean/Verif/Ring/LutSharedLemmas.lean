import Verif.Ring.LutLemmas

/-!
# Oblivious lookup tables: shared tables and tables of points
-/

namespace Verif.Rep3.Lut

open PartyID Verif.Rep3.Ring

variable {R M : Type} {w t p : Nat} {ty : A2BType} {st : PartyID → Rep3State R}
  [∀ w, Sample R (BitVec w)] [∀ w, UintCodec M w]
  [Fact p.Prime] {V : Type} [AddCommGroup V] [Module (ZMod p) V]
  [Sample R (ZMod p)] [Codec M (List (ZMod p))] [Sample R V] [Codec M (List V)] [Yao.YaoRng R] [Yao.YaoNet M]

/-- One-hot vector of field elements. -/
def hotF (p n v : Nat) : List (ZMod p) := (List.range n).map fun j => if j = v then 1 else 0

omit [Fact p.Prime] in
theorem hotF_length (n v : Nat) : (hotF p n v).length = n := by simp [hotF]

theorem hot_bitTo (n v : Nat) : ((hot n v).map bitTo : List (ZMod p)) = hotF p (2 ^ n) v := by
  rw [hot, hotF, List.map_map]
  refine List.map_congr_left fun j _ => ?_
  simp [bitTo, ofBool_eq_one]

theorem foldl_hot (v : Nat) (ls : List V) (j m : Nat) (h : ls.length ≤ m) (acc : V) :
    (ls.zip ((List.range' j m).map fun x => if x = v then (1 : ZMod p) else 0)).foldl (fun acc le => acc + le.2 • le.1) acc =
      acc + if j ≤ v then ls.getD (v - j) 0 else 0 := by
  induction ls generalizing j m acc with
  | nil => simp
  | cons l ls ih =>
    cases m with
    | zero => simp at h
    | succ m =>
      rw [List.range'_succ, List.map_cons, List.zip_cons_cons, List.foldl_cons, ih _ _ (by simpa using h)]
      rcases lt_trichotomy j v with hv | rfl | hv
      · obtain ⟨d, rfl⟩ := Nat.exists_eq_add_of_lt hv
        rw [if_neg (by omega), if_pos (by omega), if_pos (by omega),
          show j + d + 1 - (j + 1) = d by omega, show j + d + 1 - j = d + 1 by omega]
        simp
      · simp
      · rw [if_neg (by omega), if_neg (by omega), if_neg (by omega)]; simp

theorem foldl_hotF (v n : Nat) (ls : List V) (h : ls.length ≤ n) (acc : V) :
    (ls.zip (hotF p n v)).foldl (fun acc le => acc + le.2 • le.1) acc = acc + ls.getD v 0 := by
  rw [hotF, List.range_eq_range', foldl_hot _ _ _ _ h]; simp

theorem write_hot (v : Nat) (val : V) (ls : List V) (j m : Nat) (h : ls.length ≤ m) :
    (ls.zip ((List.range' j m).map fun x => if x = v then (1 : ZMod p) else 0)).map (fun le => le.2 • (val - le.1) + le.1) =
      if j ≤ v then ls.set (v - j) val else ls := by
  induction ls generalizing j m with
  | nil => simp
  | cons l ls ih =>
    cases m with
    | zero => simp at h
    | succ m =>
      rw [List.range'_succ, List.map_cons, List.zip_cons_cons, List.map_cons, ih _ _ (by simpa using h)]
      rcases lt_trichotomy j v with hv | rfl | hv
      · obtain ⟨d, rfl⟩ := Nat.exists_eq_add_of_lt hv
        rw [if_neg (by omega), if_pos (by omega), if_pos (by omega),
          show j + d + 1 - (j + 1) = d by omega, show j + d + 1 - j = d + 1 by omega]
        simp
      · simp
      · rw [if_neg (by omega), if_neg (by omega), if_neg (by omega)]; simp

theorem write_hotF (v n : Nat) (val : V) (ls : List V) (h : ls.length ≤ n) :
    (ls.zip (hotF p n v)).map (fun le => le.2 • (val - le.1) + le.1) = ls.set v val := by
  rw [hotF, List.range_eq_range', write_hot _ _ _ _ _ h]; simp

omit [Sample R V] [Codec M (List V)] [AddCommGroup V] [Module (ZMod p) V] in
omit [Yao.YaoRng R] [Yao.YaoNet M] in
theorem spec_ohvField {n : Nat} (hn : 2 ≤ n) (hk : Nat.clog 2 n ≤ t)
    {index : PartyID → Share (BitVec t)} {v : BitVec t} (hx : IsBShare index v) (hst : Corr ty st) :
    Spec (M := M) (fun i => ohvField (p := p) n (index i)) st (fun r st' =>
      IsShares r (hotF p (2 ^ Nat.clog 2 n) (v.toNat % 2 ^ Nat.clog 2 n)) ∧ Corr ty st') := by
  refine Spec.bind (spec_assert (by simpa using hk)) ?_
  rintro _ _ rfl
  refine Spec.bind (spec_ohv _ (Nat.clog_pos (by norm_num) hn) hk hx hst) ?_
  rintro e st' ⟨he, hst'⟩
  have := spec_fromBitsMany (M := M) (F := ZMod p) he hst'
  rw [hot_bitTo] at this
  exact this

theorem isAdditive_foldl {l : List (PartyID → Share V × Share (ZMod p))} {vs : List (V × ZMod p)}
    (h : List.Forall₂ (fun x (v : V × ZMod p) => IsShare (fun i => (x i).1) v.1 ∧ IsShare (fun i => (x i).2) v.2) l vs)
    {acc : PartyID → V} {a : V} (ha : IsAdditive acc a) :
    IsAdditive (fun i => (l.map (· i)).foldl (fun acc le => acc + Point.localMul (F := ZMod p) le.2 le.1) (acc i))
      (vs.foldl (fun acc le => acc + le.2 • le.1) a) := by
  induction h generalizing acc a with
  | nil => exact ha
  | @cons x v l vs hx _ ih =>
    simp only [List.map_cons, List.foldl_cons]
    refine ih ?_
    unfold IsAdditive at *
    rw [← Point.localMul_sum hx.2 hx.1, ← ha]
    dsimp only
    abel

theorem spec_readSharedLut {lut : PartyID → List (Share V)} {ls : List V} (hl : IsShares lut ls) (hn : 2 ≤ ls.length)
    (hk : Nat.clog 2 ls.length ≤ t) {index : PartyID → Share (BitVec t)} {v : BitVec t} (hx : IsBShare index v)
    (hst : Corr ty st) :
    Spec (M := M) (fun i => readSharedLut (p := p) (lut i) (index i)) st (fun r st' =>
      IsAdditive r (ls.getD (v.toNat % 2 ^ Nat.clog 2 ls.length) 0) ∧ Corr ty st') := by
  have hlen : ∀ i, (lut i).length = ls.length := Cols.length hl
  unfold readSharedLut
  simp only [hlen]
  refine Spec.bind (spec_ohvField hn hk hx hst) ?_
  rintro e st' ⟨he, hst'⟩
  refine Spec.bind (spec_masking hst') ?_
  rintro m st'' ⟨hm, hst''⟩
  refine Spec.pure ⟨?_, hst''⟩
  obtain ⟨l, hl', h⟩ := Cols.zip hl he
  have key := isAdditive_foldl h (acc := m) (a := 0) hm
  rw [foldl_hotF _ _ _ le_two_pow_clog, zero_add] at key
  have hl'' : ∀ i, (lut i).zip (e i) = l.map (· i) := fun i => congrFun hl' i
  simp only [hl'']
  exact key

omit [Yao.YaoRng R] [Yao.YaoNet M] in
theorem spec_writeLutFromOhv {lut : PartyID → List (Share V)} {ls : List V} (hl : IsShares lut ls)
    {value : PartyID → Share V} {val : V} (hv : IsShare value val)
    {e : PartyID → List (Share (ZMod p))} {n idx : Nat} (he : IsShares e (hotF p n idx)) (hn : ls.length ≤ n)
    (hst : Corr ty st) :
    Spec (M := M) (fun i => writeLutFromOhv (value i) (lut i) (e i)) st (fun r st' =>
      IsShares r (ls.set idx val) ∧ Corr ty st') := by
  have hlen : ∀ i, (lut i).length = ls.length := Cols.length hl
  have hlen' : ∀ i, (e i).length = n := fun i => by rw [Cols.length he, hotF_length]
  unfold writeLutFromOhv
  simp only [hlen, hlen']
  refine Spec.bind (spec_assert (by simpa using hn)) ?_
  rintro _ _ rfl
  refine Spec.bind (Spec.mapCols (Q := fun (r : PartyID → V) (v : V) => IsAdditive r v)
    (g := fun v : V × ZMod p => v.2 • (val - v.1) + v.1) (I := Corr ty) (Cols.zip hl he) ?_ hst) ?_
  · rintro x ⟨l, k⟩ st ⟨h1, h2⟩ hst
    refine Spec.bind (spec_masking hst) ?_
    rintro m st' ⟨hm, hst'⟩
    refine Spec.pure ⟨?_, hst'⟩
    have := Point.localMul_sum h2 (IsShare.sub hv h1)
    refine Point.sum_masks (x := fun i => Point.localMul (F := ZMod p) (x i).2 (value i - (x i).1) + (x i).1.a) ?_ hm
    rw [← this, ← h1.2]
    dsimp only
    abel
  rw [write_hotF _ _ _ _ hn]
  rintro r st' ⟨⟨l, rfl, hl'⟩, hst'⟩
  refine Spec.bind spec_reshareMany ?_
  rintro b _ ⟨rfl, rfl⟩
  have hll : l.length = ls.length := by rw [hl'.length_eq, List.length_set]
  refine Spec.pure ⟨⟨l.map replicate, ?_, ?_⟩, hst'⟩
  · funext i
    rw [List.drop_eq_nil_of_le (by simp [hlen, hll]), List.append_nil, List.zip_map']
    apply List.ext_getElem
    · simp [hlen, hll]
    · intro k h1 h2
      simp [replicate]
  · rw [List.forall₂_map_left_iff]
    exact hl'.imp fun a b hab => isShare_replicate hab

theorem spec_writeLut {lut : PartyID → List (Share V)} {ls : List V} (hl : IsShares lut ls) (hn : 2 ≤ ls.length)
    (hk : Nat.clog 2 ls.length ≤ t) {value : PartyID → Share V} {val : V} (hv : IsShare value val)
    {index : PartyID → Share (BitVec t)} {v : BitVec t} (hx : IsBShare index v) (hst : Corr ty st) :
    Spec (M := M) (fun i => writeLut (p := p) (value i) (lut i) (index i)) st (fun r st' =>
      IsShares r (ls.set (v.toNat % 2 ^ Nat.clog 2 ls.length) val) ∧ Corr ty st') := by
  have hlen : ∀ i, (lut i).length = ls.length := Cols.length hl
  unfold writeLut
  simp only [hlen]
  refine Spec.bind (spec_ohvField hn hk hx hst) ?_
  rintro e st' ⟨he, hst'⟩
  exact spec_writeLutFromOhv hl hv he le_two_pow_clog hst'

theorem spec_getFromSharedLut {lut : PartyID → List (Share V)} {ls : List V} (hl : IsShares lut ls) (hn : 2 ≤ ls.length)
    (hn' : ls.length ≤ 2 ^ 32) (hw : modBits p + 2 ≤ w) (ho : ty = .yao → p % 2 = 1) {index : PartyID → Share (ZMod p)} {x : ZMod p}
    (hx : IsShare index x) (hst : Corr ty st) :
    Spec (M := M) (fun i => getFromSharedLut w (index i) (lut i)) st (fun r st' =>
      IsShare r (ls.getD (x.val % 2 ^ Nat.clog 2 ls.length) 0) ∧ Corr ty st') := by
  have hlen : ∀ i, (lut i).length = ls.length := Cols.length hl
  have hk : Nat.clog 2 ls.length ≤ 32 := clog_le_of_le hn'
  have e : (fun i => getFromSharedLut w (index i) (lut i) : PartyID → Rep3M R M (Share V)) = fun i => (do
      let share ← castIndex w ls.length (index i)
      let fA ← readSharedLut (p := p) (lut i) share
      let fB ← reshare fA
      pure ⟨fA, fB⟩) := by
    funext i
    unfold getFromSharedLut
    rw [hlen i]
  rw [e]
  refine Spec.bind (spec_castIndex hk hw ho hx hst) ?_
  rintro b st' ⟨⟨v, hb, hv⟩, hst'⟩
  refine Spec.bind (spec_readSharedLut hl hn (le_lutWidth hk) hb hst') ?_
  rintro r st' ⟨hr, hst'⟩
  rw [hv, mod_mod_pow (le_lutWidth hk)] at hr
  refine Spec.bind spec_reshare ?_
  rintro b' _ ⟨rfl, rfl⟩
  exact Spec.pure ⟨isShare_mk hr, hst'⟩

omit [Module (ZMod p) V] [Fact p.Prime] in
/-- What the parties hold for a table: the same public values, or shares of the values. -/
def IsTable (lut : PartyID → Table V) (ls : List V) : Prop :=
  (lut = fun _ => .pub ls) ∨ ∃ l : PartyID → List (Share V), (lut = fun i => .shared (l i)) ∧ IsShares l ls

theorem spec_writeToLut {promote : PartyID → V → Share V} (hp : ∀ v, IsShare (fun i => promote i v) v)
    {lut : PartyID → Table V} {ls : List V} (hl : IsTable lut ls) (hn : 2 ≤ ls.length)
    (hn' : ls.length ≤ 2 ^ 32) (hw : modBits p + 2 ≤ w) (ho : ty = .yao → p % 2 = 1) {index : PartyID → Share (ZMod p)} {x : ZMod p}
    (hx : IsShare index x) {value : PartyID → Share V} {val : V} (hv : IsShare value val) (hst : Corr ty st) :
    Spec (M := M) (fun i => writeToLut w promote (index i) (value i) (lut i)) st (fun r st' =>
      (∃ l : PartyID → List (Share V), (r = fun i => .shared (l i)) ∧
        IsShares l (ls.set (x.val % 2 ^ Nat.clog 2 ls.length) val)) ∧ Corr ty st') := by
  have hk : Nat.clog 2 ls.length ≤ 32 := clog_le_of_le hn'
  rcases hl with rfl | ⟨l, rfl, hl⟩
  · unfold writeToLut
    simp only [Table.len]
    refine Spec.bind (spec_castIndex hk hw ho hx hst) ?_
    rintro b st' ⟨⟨v, hb, hbv⟩, hst'⟩
    refine Spec.bind (spec_stateId (M := M) hst') ?_
    rintro _ _ ⟨rfl, rfl⟩
    have hl : IsShares (fun i => ls.map (promote i)) ls := by
      have := Cols.map (f := promote) (g := id) (Q := IsShare)
        (cols_const (P := fun x v => x = fun _ => v) (l := ls) fun v _ => rfl) (by rintro _ v rfl; exact hp v)
      rwa [List.map_id] at this
    refine Spec.bind (spec_writeLut hl hn (le_lutWidth hk) hv hb hst') ?_
    rintro r st' ⟨hr, hst'⟩
    rw [hbv, mod_mod_pow (le_lutWidth hk)] at hr
    exact Spec.pure ⟨⟨r, rfl, hr⟩, hst'⟩
  · have hlen : ∀ i, (l i).length = ls.length := Cols.length hl
    have e : (fun i => writeToLut w promote (index i) (value i) (.shared (l i)) : PartyID → Rep3M R M (Table V)) =
        fun i => (do
        let share ← castIndex w ls.length (index i)
        let l ← writeLut (p := p) (value i) (l i) share
        pure (.shared l)) := by
      funext i
      unfold writeToLut
      simp only [Table.len]
      rw [hlen i]
    rw [e]
    refine Spec.bind (spec_castIndex hk hw ho hx hst) ?_
    rintro b st' ⟨⟨v, hb, hbv⟩, hst'⟩
    refine Spec.bind (spec_writeLut hl hn (le_lutWidth hk) hv hb hst') ?_
    rintro r st' ⟨hr, hst'⟩
    rw [hbv, mod_mod_pow (le_lutWidth hk)] at hr
    exact Spec.pure ⟨⟨r, rfl, hr⟩, hst'⟩

omit [Sample R V] [Codec M (List V)] [AddCommGroup V] [Module (ZMod p) V] in
theorem spec_ohvFromIndex {n : Nat} (hn : 2 ≤ n)
    (hn' : n ≤ 2 ^ 32) (hw : modBits p + 2 ≤ w) (ho : ty = .yao → p % 2 = 1) {index : PartyID → Share (ZMod p)} {x : ZMod p}
    (hx : IsShare index x) (hst : Corr ty st) :
    Spec (M := M) (fun i => ohvFromIndex w (index i) n) st (fun r st' =>
      IsShares r (hotF p (2 ^ Nat.clog 2 n) (x.val % 2 ^ Nat.clog 2 n)) ∧ Corr ty st') := by
  have hk : Nat.clog 2 n ≤ 32 := clog_le_of_le hn'
  refine Spec.bind (spec_castIndex hk hw ho hx hst) ?_
  rintro b st' ⟨⟨v, hb, hbv⟩, hst'⟩
  refine Spec.bind (spec_ohv _ (Nat.clog_pos (by norm_num) hn) (le_lutWidth hk) hb hst') ?_
  rintro e st' ⟨he, hst'⟩
  rw [hbv, mod_mod_pow (le_lutWidth hk)] at he
  have := spec_fromBitsMany (M := M) (F := ZMod p) he hst'
  rw [hot_bitTo] at this
  exact this

/-! ### Points -/

theorem pointSum_foldl {ls : List V} {l : List (PartyID → Share (ZMod p))} {ks : List (ZMod p)} (h : List.Forall₂ IsShare l ks)
    {acc : PartyID → Share V} {a : V} (ha : IsShare acc a) :
    IsShare (fun i => (ls.zip (l.map (· i))).foldl
      (fun acc le => acc + Point.scalarMulPublicPoint (F := ZMod p) le.1 le.2) (acc i))
      ((ls.zip ks).foldl (fun acc le => acc + le.2 • le.1) a) := by
  induction h generalizing ls acc a with
  | nil => simpa using ha
  | @cons x k l ks hx _ ih =>
    cases ls with
    | nil => simpa using ha
    | cons c ls =>
      simp only [List.map_cons, List.zip_cons_cons, List.foldl_cons]
      exact ih (IsShare.add ha (Point.scalarMulPublicPoint_share hx c))

theorem isShare_pointSum {ls : List V} {e : PartyID → List (Share (ZMod p))} {n idx : Nat}
    (he : IsShares e (hotF p n idx)) (hn : ls.length ≤ n) :
    IsShare (fun i => pointSum ls (e i)) (ls.getD idx 0) := by
  obtain ⟨l, rfl, hl⟩ := he
  have := pointSum_foldl (ls := ls) hl (acc := fun _ => ⟨0, 0⟩) (a := 0) ⟨fun i => rfl, by simp⟩
  rwa [foldl_hotF _ _ _ hn, zero_add] at this

/-- When the one-hot vector is shorter than the table, the sum stops at its end. -/
theorem isShare_pointSum_take {ls : List V} {e : PartyID → List (Share (ZMod p))} {n idx : Nat}
    (he : IsShares e (hotF p n idx)) (hidx : idx < n) :
    IsShare (fun i => pointSum ls (e i)) (ls.getD idx 0) := by
  have hlen : ∀ i, (e i).length = n := fun i => by rw [Cols.length he, hotF_length]
  have h := isShare_pointSum (ls := ls.take n) he (by simp)
  have e1 : (ls.take n).getD idx 0 = ls.getD idx 0 := by
    simp only [List.getD_eq_getElem?_getD]
    rw [List.getElem?_take_of_lt hidx]
  have e2 : ∀ i, pointSum (ls.take n) (e i) = pointSum ls (e i) := fun i => by
    unfold pointSum
    congr 1
    apply List.ext_getElem
    · simp [hlen, Nat.min_comm]
    · intro k h1 h2; simp
  rw [e1] at h
  simpa only [e2] using h

theorem spec_getPointFromPublicLut {ls : List V} (hn : 2 ≤ ls.length)
    (hn' : ls.length ≤ 2 ^ 32) (hw : modBits p + 2 ≤ w) (ho : ty = .yao → p % 2 = 1) {index : PartyID → Share (ZMod p)} {x : ZMod p}
    (hx : IsShare index x) (hst : Corr ty st) :
    Spec (M := M) (fun i => getPointFromPublicLut w (index i) ls) st (fun r st' =>
      IsShare r (ls.getD (x.val % 2 ^ Nat.clog 2 ls.length) 0) ∧ Corr ty st') := by
  have hk : Nat.clog 2 ls.length ≤ 32 := clog_le_of_le hn'
  refine Spec.bind (spec_castIndex hk hw ho hx hst) ?_
  rintro b st' ⟨⟨v, hb, hbv⟩, hst'⟩
  refine Spec.bind (spec_ohvField hn (le_lutWidth hk) hb hst') ?_
  rintro e st' ⟨he, hst'⟩
  rw [hbv, mod_mod_pow (le_lutWidth hk)] at he
  exact Spec.pure ⟨isShare_pointSum he le_two_pow_clog, hst'⟩

theorem spec_getPointsFromPublicLuts {luts : List (List V)} (h2 : 2 ≤ luts.length)
    (hk : Nat.clog 2 (maxLen luts) ≤ 32) (hc : Nat.clog 2 luts.length ≤ lutWidth (Nat.clog 2 (maxLen luts)))
    (hw : modBits p + 2 ≤ w) (ho : ty = .yao → p % 2 = 1) {index : PartyID → Share (ZMod p)} {x : ZMod p}
    (hx : IsShare index x) (hst : Corr ty st) :
    Spec (M := M) (fun i => getPointsFromPublicLuts w (index i) luts) st (fun r st' =>
      IsShares r (luts.map fun ls => ls.getD (x.val % 2 ^ Nat.clog 2 luts.length) 0) ∧ Corr ty st') := by
  unfold getPointsFromPublicLuts
  simp only [if_neg (show luts ≠ [] by rintro rfl; simp at h2)]
  refine Spec.bind (spec_castIndex hk hw ho hx hst) ?_
  rintro b st' ⟨⟨v, hb, hbv⟩, hst'⟩
  refine Spec.bind (spec_ohvField h2 hc hb hst') ?_
  rintro e st' ⟨he, hst'⟩
  rw [hbv, mod_mod_pow hc] at he
  refine Spec.pure ⟨?_, hst'⟩
  refine Cols.map (P := fun x v => x = fun _ => v) (cols_const fun _ _ => rfl) ?_
  rintro _ ls rfl
  exact isShare_pointSum_take he (Nat.mod_lt _ (Nat.two_pow_pos _))

end Verif.Rep3.Lut
