import Verif.Ring.SortRank
import Verif.Ring.LutLemmas

/-!
# Lemmas about the radix sort protocol
-/

namespace Verif.Rep3.Radix

open PartyID Verif.Rep3.Ring

section Running

variable {F σ : Type}

theorem running_append (f : σ → F → σ) (s : σ) (xs ys : List F) :
    running f s (xs ++ ys) =
      ((running f s xs).1 ++ (running f (running f s xs).2 ys).1, (running f (running f s xs).2 ys).2) := by
  induction xs generalizing s with
  | nil => rfl
  | cons x xs ih => simp [running, ih]

@[simp] theorem running_length (f : σ → F → σ) (s : σ) (xs : List F) : (running f s xs).1.length = xs.length := by
  induction xs generalizing s with
  | nil => rfl
  | cons x xs ih => simp [running, ih]

variable [CommRing F]

theorem running_add_snd (s : F) (l : List F) : (running (· + ·) s l).2 = s + l.sum := by
  induction l generalizing s with
  | nil => simp [running]
  | cons x xs ih => simp [running, ih, add_assoc]

theorem running_add_fst (s : F) (l : List F) (k : Nat) (hk : k < l.length) :
    (running (· + ·) s l).1[k]'(by simpa using hk) = s + (l.take (k + 1)).sum := by
  induction l generalizing s k with
  | nil => simp at hk
  | cons x xs ih =>
    cases k with
    | zero => simp [running]
    | succ k =>
      have := ih (s + x) k (by simpa using hk)
      simp only [running, List.getElem_cons_succ, this, List.take_succ_cons, List.sum_cons]
      ring

theorem running_ofFn {n : Nat} (s : F) (f : Fin n → F) :
    running (· + ·) s (List.ofFn f) =
      (List.ofFn (fun i : Fin n => s + ∑ j with j.val < i.val + 1, f j), s + ∑ j, f j) := by
  refine Prod.ext ?_ ?_
  · apply List.ext_getElem
    · simp
    · intro k h1 h2
      rw [running_add_fst _ _ _ (by simpa using h1), List.sum_take_ofFn]
      simp only [List.getElem_ofFn]
  · rw [running_add_snd, List.sum_ofFn]

theorem zipWith_mul_comm (l l' : List F) : List.zipWith (· * ·) l l' = List.zipWith (· * ·) l' l :=
  List.zipWith_comm_of_comm fun a b => mul_comm a b

theorem isShares_running {x : PartyID → List (Share F)} {vs : List F} {s : PartyID → Share F} {v : F}
    (hx : IsShares x vs) (hs : IsShare s v) :
    IsShares (fun i => (running Rep3.add (s i) (x i)).1) (running (· + ·) v vs).1 ∧
      IsShare (fun i => (running Rep3.add (s i) (x i)).2) (running (· + ·) v vs).2 := by
  obtain ⟨l, rfl, hl⟩ := hx
  induction hl generalizing s v with
  | nil => exact ⟨isShares_nil, hs⟩
  | cons h _ ih =>
    obtain ⟨h1, h2⟩ := ih (hs.add h)
    exact ⟨isShares_cons (hs.add h) h1, h2⟩

theorem isShares_running_public (pub : List F) {s : PartyID → Share F} {v : F} (hs : IsShare s v) :
    IsShares (fun i => (running (fun s f => Rep3.addPublic s f i) (s i) pub).1) (running (· + ·) v pub).1 ∧
      IsShare (fun i => (running (fun s f => Rep3.addPublic s f i) (s i) pub).2) (running (· + ·) v pub).2 := by
  induction pub generalizing s v with
  | nil => exact ⟨isShares_nil, hs⟩
  | cons x pub ih =>
    obtain ⟨h1, h2⟩ := ih (hs.addPublic x)
    exact ⟨isShares_cons (hs.addPublic x) h1, h2⟩

end Running

section Specs

variable {R M : Type} {ty : A2BType} {n : Nat} {st : PartyID → Rep3State R}
  [Sample R (BitVec 32)] [UintCodec M 32]

theorem spec_genBitPerm {priv : PartyID → PermShare} {vs pub : List (BitVec 32)} {b : Fin n → Bool}
    (hx : IsShares priv vs) (hb : vs ++ pub = List.ofFn fun j => if b j then 1#32 else 0#32) (hst : Corr ty st) :
    Spec (M := M) (fun i => genBitPerm (priv i) pub) st (fun r st' =>
      IsShares r (List.ofFn fun j => BitVec.ofNat 32 (rank (fun j => (b j).toNat) j + 1)) ∧ Corr ty st') := by
  refine Spec.bind (spec_stateId hst) ?_
  rintro _ _ ⟨rfl, rfl⟩
  have hxl : ∀ i, (priv i).length = vs.length := Cols.length hx
  -- the vectors f0 and f1
  have hf0 : IsShares (fun i => (priv i).map fun inp => Ring.addPublic (-inp) 1#32 i) (vs.map fun v => 1#32 - v) :=
    Cols.map (f := fun i (inp : Share (BitVec 32)) => Ring.addPublic (-inp) 1#32 i) (g := fun v : BitVec 32 => 1#32 - v)
      hx (fun x v h => by
        have := h.neg.addPublic 1#32
        rwa [show -v + 1#32 = 1#32 - v by rw [sub_eq_add_neg, add_comm]] at this)
  obtain ⟨h1a, h1e⟩ := isShares_running hf0 (IsShare.zero (G := BitVec 32))
  obtain ⟨h2a, h2e⟩ := isShares_running_public (pub.map fun inp => 1#32 - inp) h1e
  obtain ⟨h3a, h3e⟩ := isShares_running hx h2e
  obtain ⟨h4a, h4e⟩ := isShares_running_public pub h3e
  have htake : ∀ {A B : PartyID → PermShare} {us : List (BitVec 32)}, IsShares A us → us.length = vs.length →
      IsShares (fun i => (A i ++ B i).take (priv i).length) us := by
    intro A B us hA hl
    convert hA using 1
    funext i
    exact List.take_left' (by rw [hxl, Cols.length hA, hl])
  have hdrop : ∀ {A B : PartyID → PermShare} {us us' : List (BitVec 32)}, IsShares A us → us.length = vs.length →
      IsShares B us' → IsShares (fun i => (A i ++ B i).drop (priv i).length) us' := by
    intro A B us us' hA hl hB
    convert hB using 1
    funext i
    exact List.drop_left' (by rw [hxl, Cols.length hA, hl])
  refine Spec.bind (Q₁ := fun r st' => (∃ rs : List (PartyID → BitVec 32), (r = fun i => rs.map (· i)) ∧
        List.Forall₂ IsAdditive rs _) ∧ Corr ty st') (by
    let _ : SampleVec R (BitVec 32) := ⟨sampleN, fun r n => sampleN_length r n⟩
    exact spec_localMulVec hf0 (htake h1a (by simp)) (by simp) hst) ?_
  rintro _ st1 ⟨⟨m1, rfl, hm1⟩, hst1⟩
  refine Spec.bind (Q₁ := fun r st' => (∃ rs : List (PartyID → BitVec 32), (r = fun i => rs.map (· i)) ∧
        List.Forall₂ IsAdditive rs _) ∧ Corr ty st') (by
    let _ : SampleVec R (BitVec 32) := ⟨sampleN, fun r n => sampleN_length r n⟩
    exact spec_localMulVec hx (htake h3a (by simp)) (by simp) hst1) ?_
  rintro _ st2 ⟨⟨m2, rfl, hm2⟩, hst2⟩
  simp only [zipWith_columns (fun (_ : PartyID) (x y : BitVec 32) => x + y)]
  refine Spec.bind spec_reshareVec ?_
  rintro _ _ ⟨rfl, rfl⟩
  refine Spec.pure ⟨?_, hst2⟩
  have hm : List.Forall₂ IsAdditive (List.zipWith (fun x y (i : PartyID) => x i + y i) m1 m2) _ :=
    forall₂_zipWith (f' := fun x y : BitVec 32 => x + y) (T := IsAdditive) (fun a a' b b' ha hb => by
      unfold IsAdditive at *
      rw [← ha, ← hb]; ring) hm1 hm2
  have hscale : ∀ {A : PartyID → PermShare} {us : List (BitVec 32)} (q : List (BitVec 32)), IsShares A us →
      us.length = q.length →
      IsShares (fun i => List.zipWith Ring.mulPublic (A i) q) (List.zipWith (· * ·) us q) := by
    intro A us q hA hl
    exact Cols.zipWith (Q := fun (x : PartyID → BitVec 32) v => x = fun _ => v) (f := fun _ => Ring.mulPublic)
      (g := fun x y : BitVec 32 => x * y) (t := fun _ => q) hA (Lut.cols_const fun _ _ => rfl) (fun x v y u hx hy => by
        subst hy
        exact hx.scale u)
  have hq : IsShares (fun i => List.zipWith Ring.add _ _) _ :=
    Cols.zipWith (f := fun _ => Ring.add) (g := fun x y : BitVec 32 => x + y)
      (hscale (pub.map fun inp => 1#32 - inp) (hdrop h1a (by simp) h2a) (by simp))
      (hscale pub (hdrop h3a (by simp) h4a) (by simp)) (fun x v y u hx hy => hx.add hy)
  have hfin := Cols.append (isShares_replicate hm) hq
  rw [zipWith_mul_comm _ (List.map _ pub), zipWith_mul_comm _ pub, ← List.zipWith_append (by simp),
    ← List.zipWith_append (by simp), ← List.zipWith_append (by simp), ← List.map_append, hb, map_ofFn'] at hfin
  have e0 := running_append (fun x1 x2 : BitVec 32 => x1 + x2) 0 (List.map (fun v => 1#32 - v) vs)
    (List.map (fun v => 1#32 - v) pub)
  rw [← List.map_append, hb, map_ofFn', running_ofFn] at e0
  have e1 := running_append (fun x1 x2 : BitVec 32 => x1 + x2)
    (running (fun x1 x2 => x1 + x2) (running (fun x1 x2 => x1 + x2) 0 (List.map (fun v => 1#32 - v) vs)).2
                    (List.map (fun inp => 1#32 - inp) pub)).2 vs pub
  rw [hb, running_ofFn] at e1
  rw [Prod.mk.injEq] at e0 e1
  rw [← e1.1, ← e0.2, ← e0.1, zipWith_ofFn, zipWith_ofFn,
    zipWith_ofFn] at hfin
  simp only [zero_add] at hfin
  exact (congrArg (IsShares _) (congrArg List.ofFn (funext fun j => bitPerm_value b j))).mp hfin

/-- The shared permutation `ρ`, with images counted from one as the protocol has them. -/
def succs (ρ : Fin n → Fin n) : List (BitVec 32) := List.ofFn fun j => BitVec.ofNat 32 ((ρ j : Nat) + 1)

theorem mapM_pred (ρ : Fin n → Fin n) (hn : n < 2 ^ 32) :
    (succs ρ).mapM pred = some (List.ofFn fun j => (ρ j : Nat)) := by
  unfold succs
  rw [show (List.ofFn fun j => BitVec.ofNat 32 ((ρ j : Nat) + 1)) =
    (List.ofFn fun j => (ρ j : Nat)).map (fun k => BitVec.ofNat 32 (k + 1)) from
    (map_ofFn' (fun k : Nat => BitVec.ofNat 32 (k + 1)) fun j => (ρ j : Nat)).symm, List.mapM_map, mapM_some (g := id)]
  · simp
  · intro x hx
    obtain ⟨j, rfl⟩ := (List.mem_ofFn' _ _).1 hx
    exact pred_succ (by have := (ρ j).isLt; simp only; omega)

variable [∀ n, Sample R (Fin (n + 1))]

theorem spec_compose {sigma phi : PartyID → PermShare} {ρ : Equiv.Perm (Fin n)} {φ : Fin n → BitVec 32} (hn : n < 2 ^ 32)
    (hs : IsShares sigma (succs ρ)) (hp : IsShares phi (List.ofFn φ)) (hst : Corr ty st) :
    Spec (M := M) (fun i => compose (sigma i) (phi i)) st (fun r st' =>
      IsShares r (List.ofFn fun j => φ (ρ j)) ∧ Corr ty st') := by
  refine Spec.bind (spec_randomPerm (n := n) (fun i => by rw [Cols.length hs]; simp [succs]) hn hst) ?_
  rintro pi st' ⟨⟨σ, hpi⟩, hst'⟩
  refine Spec.bind (spec_shuffleReveal hpi hn hs hst') ?_
  rintro _ st' ⟨rfl, hst'⟩
  refine Spec.bind (Lut.spec_orPanic fun _ => mapM_pred (fun j => ρ (σ ID0 (σ ID2 (σ ID1 j)))) hn) ?_
  rintro _ _ ⟨rfl, rfl⟩
  obtain ⟨s, rfl, hs⟩ := isShares_ofFn hp
  refine Spec.bind (Lut.spec_orPanic fun i => lookup_ofFn (fun j => s j i) fun j => ρ (σ ID0 (σ ID2 (σ ID1 j)))) ?_
  rintro _ _ ⟨rfl, rfl⟩
  have := spec_unshuffle (M := M) hpi hn (isShares_of_ofFn fun j => hs (ρ (σ ID0 (σ ID2 (σ ID1 j))))) hst'
  simpa using this

variable {F J : Type} [CommRing F] [Sample R F] [Codec M (List F)] [Codec J (List (Share F))] {st₀ st₁ : PartyID → Rep3State R}

theorem spec_applyInv {rho : PartyID → PermShare} {ρ : Equiv.Perm (Fin n)} {priv : PartyID → List (Share F)}
    {vs pub : List F} {f : Fin n → F} (hn : n < 2 ^ 32) (hs : IsShares rho (succs ρ)) (hx : IsShares priv vs)
    (hf : vs ++ pub = List.ofFn f) (hst₀ : Corr ty st₀) (hst₁ : Corr ty st₁) :
    Spec₂ (M := M) (J := J) (fun i => applyInv (rho i) (priv i) pub) st₀ st₁ (fun r st₀ st₁ =>
      IsShares r (List.ofFn fun j => f (ρ.symm j)) ∧ Corr ty st₀ ∧ Corr ty st₁) := by
  refine Spec₂.bind (Q₁ := fun r s₀ s₁ => (∃ σ, IsPerm (n := n) r σ) ∧ Corr ty s₀ ∧ s₁ = st₁)
    (Spec₂.first ((spec_randomPerm (n := n) (fun i => by rw [Cols.length hs]; simp [succs]) hn hst₀).mono
      fun r s h => ⟨h.1, h.2, rfl⟩)) ?_
  rintro pi s₀ _ ⟨⟨σ, hpi⟩, hs₀, rfl⟩
  refine Spec₂.bind (Spec₂.join (Q := fun r s₀ s₁ => (∀ i, (r i).1 = succs fun j => ρ (σ ID0 (σ ID2 (σ ID1 j)))) ∧
      IsShares (fun i => (r i).2) (List.ofFn fun j => f (σ ID0 (σ ID2 (σ ID1 j)))) ∧ Corr ty s₀ ∧ Corr ty s₁)
    ((spec_shuffleReveal hpi hn hs hs₀).mono ?_)) ?_
  · rintro _ s ⟨rfl, hs⟩
    exact (spec_shuffle hpi hn hx hf hst₁).mono fun r s' h => ⟨fun _ => rfl, h.1, hs, h.2⟩
  rintro r s₀ s₁ ⟨h1, h2, hs₀, hs₁⟩
  have hl : ∀ i, (r i).2.length = n := fun i => by rw [Cols.length h2]; simp
  refine Spec₂.bind (Q₁ := fun v t₀ t₁ => (v = fun _ => List.ofFn fun j => ((ρ (σ ID0 (σ ID2 (σ ID1 j)))) : Nat)) ∧ t₀ = s₀ ∧ t₁ = s₁)
    (Spec₂.first ((Lut.spec_orPanic fun i => ?_).mono fun r s h => ⟨h.1, h.2, rfl⟩)) ?_
  · rw [h1, List.take_of_length_le (by rw [hl]; simp [succs]), mapM_pred _ hn]
  rintro _ _ _ ⟨rfl, rfl, rfl⟩
  obtain ⟨s, hr, hsv⟩ := isShares_ofFn h2
  have hr' : ∀ i, (r i).2 = List.ofFn fun j => s j i := fun i => congrFun hr i
  let τ : Equiv.Perm (Fin n) := (((σ ID1).trans (σ ID2)).trans (σ ID0)).trans ρ
  refine (Spec₂.first ((Lut.spec_orPanic (r := fun i => List.ofFn fun j => s (τ.symm j) i) fun i => ?_).mono
    fun r s h => (?_ : _ ∧ _ ∧ _)))
  · rw [hr']
    exact place_ofFn τ _ _ (by simp [Cols.length hs, succs])
  · obtain ⟨rfl, rfl⟩ := h
    refine ⟨?_, hs₀, hs₁⟩
    have := isShares_of_ofFn fun j => hsv (τ.symm j)
    simpa [τ] using this

/-- One round of the radix sort: the bits are brought into the order found so far, their stable order is determined, and
the two orders are composed. -/
theorem spec_round {perm bits : PartyID → PermShare} {vs pub : List (BitVec 32)} {key : Fin n → Nat} {k : Nat}
    [Codec J (List (Share (BitVec 32)))] (hn : n < 2 ^ 32)
    (hp : IsShares perm (succs (rankPerm fun j => key j % 2 ^ k))) (hx : IsShares bits vs)
    (hb : vs ++ pub = List.ofFn fun j => if (key j).testBit k then 1#32 else 0#32)
    (hst₀ : Corr ty st₀) (hst₁ : Corr ty st₁) :
    Spec₂ (M := M) (J := J) (fun i => (do
        let bitI ← applyInv (perm i) (bits i) pub
        let permI ← MPC₂.first (genBitPerm bitI [])
        MPC₂.first (compose (perm i) permI) : MPC₂ PartyID (Rep3State R) M J PermShare)) st₀ st₁ (fun r st₀ st₁ =>
      IsShares r (succs (rankPerm fun j => key j % 2 ^ (k + 1))) ∧ Corr ty st₀ ∧ Corr ty st₁) := by
  refine Spec₂.bind (spec_applyInv hn hp hx hb hst₀ hst₁) ?_
  rintro r s₀ s₁ ⟨hr, hs₀, hs₁⟩
  refine Spec₂.bind (Q₁ := fun r t₀ t₁ => _ ∧ Corr ty t₀ ∧ t₁ = s₁)
    (Spec₂.first ((spec_genBitPerm hr (List.append_nil _) hs₀).mono fun r s h => ⟨h.1, h.2, rfl⟩)) ?_
  rintro r t₀ _ ⟨hr, ht₀, rfl⟩
  refine Spec₂.first ((spec_compose hn hp hr ht₀).mono fun r s h => ⟨?_, h.2, hs₁⟩)
  have h1 := h.1
  simp only [rank_step] at h1
  simpa [succs, rankPerm_val] using h1

end Specs

section Fields

variable {R M J : Type} {p w n : Nat} {ty : A2BType} {st st₀ st₁ : PartyID → Rep3State R} [∀ n, Sample R (Fin (n + 1))] [Sample R (BitVec 32)]
  [UintCodec M 32] [Sample R (ZMod p)] [Codec M (List (ZMod p))] [Sample R (BitVec w)] [UintCodec M w]
  [Codec J (List (Share (BitVec w)))] [Codec J (List (Share (BitVec 32)))] [NeZero p] [Yao.YaoRng R] [Yao.YaoNet M]

omit [∀ n, Sample R (Fin (n + 1))] [Sample R (BitVec 32)] [UintCodec M 32] [Codec J (List (Share (BitVec 32)))] in
theorem spec_decompose {x : PartyID → List (Share (ZMod p))} {vs : List (ZMod p)} {bitsize : Nat} (hw : modBits p + 2 ≤ w) (ho : ty = .yao → p % 2 = 1)
    (hb : bitsize ≤ w) (hx : IsShares x vs) (hst₀ : Corr ty st₀) (hst₁ : Corr ty st₁) :
    Spec₂ (M := M) (J := J) (fun i => decompose (w := w) (x i) bitsize) st₀ st₁ (fun r st₀ st₁ =>
      IsBShares r (vs.map fun v => Uint.ofField w v &&& Uint.mask w bitsize) ∧ Corr ty st₀ ∧ Corr ty st₁) := by
  have half : ∀ {x : PartyID → List (Share (ZMod p))} {vs : List (ZMod p)} {st : PartyID → Rep3State R},
      IsShares x vs → Corr ty st →
      Spec (M := M) (fun i => decomposeHalf w (x i) bitsize) st (fun r st' =>
        IsBShares r (vs.map fun v => Uint.ofField w v &&& Uint.mask w bitsize) ∧ Corr ty st') := by
    intro x vs st hx hst
    refine Spec.mapCols (P := IsShare) (Q := IsBShare) (I := Corr ty) hx ?_ hst
    intro x v st hx hst
    refine Spec.bind (spec_a2bSelector hw ho hx hst) ?_
    rintro r st' ⟨hr, hst'⟩
    exact Spec.pure ⟨hr.andMask _, hst'⟩
  have hl : ∀ i, (x i).length = vs.length := Cols.length hx
  simp only [decompose, if_neg (Nat.not_lt.2 hb), hl, gt_iff_lt]
  refine Spec₂.bind (Spec₂.join (Q := fun r s₀ s₁ =>
      IsBShares (fun i => (r i).1) ((vs.take (vs.length / 2)).map fun v => Uint.ofField w v &&& Uint.mask w bitsize) ∧
      IsBShares (fun i => (r i).2) ((vs.drop (vs.length / 2)).map fun v => Uint.ofField w v &&& Uint.mask w bitsize) ∧
      Corr ty s₀ ∧ Corr ty s₁)
    ((half (Cols.take hx _) hst₀).mono ?_)) ?_
  · rintro r s ⟨hr, hs⟩
    exact (half (Cols.drop hx _) hst₁).mono fun r' s' h => ⟨hr, h.1, hs, h.2⟩
  rintro r s₀ s₁ ⟨h1, h2, hs₀, hs₁⟩
  refine Spec₂.pure ⟨?_, hs₀, hs₁⟩
  have := Cols.append h1 h2
  rwa [← List.map_append, List.take_append_drop] at this

/-- Bit `k` of the canonical representative, as a ring element. -/
def bit32 (k : Nat) (v : ZMod p) : BitVec 32 := if v.val.testBit k then 1#32 else 0#32

omit [NeZero p] in
theorem injectPublicBit_eq {k : Nat} (hk : k < w) (l : List (ZMod p)) : injectPublicBit w l k = l.map (bit32 k) := by
  unfold injectPublicBit
  refine List.map_congr_left fun v _ => ?_
  simp only [Uint.ofField, BitVec.getLsbD_ofNat, hk, decide_true, Bool.true_and, bit32]
  cases v.val.testBit k <;> rfl

theorem xor3_ofNat (a b c : Bool) : BitVec.ofNat 32 a.toNat ^^^ BitVec.ofNat 32 b.toNat ^^^ BitVec.ofNat 32 c.toNat =
    if (a ^^ b ^^ c) then 1#32 else 0#32 := by
  cases a <;> cases b <;> cases c <;> rfl

theorem isBitShare_getLsbD {x : PartyID → Share (BitVec w)} {v : BitVec w} (h : IsBShare x v) (k : Nat) :
    IsBitShare (fun i => (⟨BitVec.ofNat 32 ((x i).a.getLsbD k).toNat, BitVec.ofNat 32 ((x i).b.getLsbD k).toNat⟩ :
      Share (BitVec 32))) (v.getLsbD k) := by
  refine ⟨⟨fun i => by simp [h.1 i], ?_⟩, fun i => ⟨?_, ?_⟩⟩
  · rw [← h.2]
    simp only [BitVec.getLsbD_xor]
    exact xor3_ofNat _ _ _
  · simp only; cases (x i).a.getLsbD k <;> simp
  · simp only; cases (x i).b.getLsbD k <;> simp

omit [Yao.YaoRng R] [Yao.YaoNet M] in
theorem spec_injectBit {x : PartyID → List (Share (BitVec w))} {vs : List (ZMod p)} {bitsize k : Nat} {ty : A2BType}
    (hb : bitsize ≤ w) (hk : k < bitsize) (hx : IsBShares x (vs.map fun v => Uint.ofField w v &&& Uint.mask w bitsize))
    (hst : Corr ty st) :
    Spec (M := M) (fun i => injectBit (x i) k) st (fun r st' => IsShares r (vs.map (bit32 k)) ∧ Corr ty st') := by
  refine (Ring.spec_bitInjectMany (bs := vs.map fun v => v.val.testBit k) ?_ hst).mono ?_
  · have := Cols.map (Q := IsBitShare) (f := fun _ (inp : Share (BitVec w)) =>
        (⟨BitVec.ofNat 32 (inp.a.getLsbD k).toNat, BitVec.ofNat 32 (inp.b.getLsbD k).toNat⟩ : Share (BitVec 32)))
      (g := fun v : BitVec w => v.getLsbD k) hx (fun x v h => isBitShare_getLsbD h k)
    rw [List.map_map] at this
    rwa [show ((fun v : BitVec w => v.getLsbD k) ∘ fun v : ZMod p => Uint.ofField w v &&& Uint.mask w bitsize) =
      fun v => v.val.testBit k from funext fun v => by
        simp only [Function.comp, Uint.ofField, BitVec.getLsbD_and, BitVec.getLsbD_ofNat, Uint.getLsbD_mask, hk,
          show k < w by omega, decide_true, Bool.true_and, Bool.and_true]] at this
  · rintro r st' ⟨hr, hst'⟩
    rw [List.map_map] at hr
    exact ⟨hr, hst'⟩

theorem rank_one (key : Fin n → Nat) :
    rank (fun j => ((key j).testBit 0).toNat) = rank (fun j => key j % 2 ^ 1) := by
  congr 1
  funext j
  rw [Nat.testBit_zero, pow_one]
  rcases Nat.mod_two_eq_zero_or_one (key j) with h | h <;> simp [h]

theorem range'_get {b k a : Nat} (h : (List.range' 1 b)[k]? = some a) : a = k + 1 ∧ k < b := by
  rw [List.getElem?_eq_some_iff] at h
  obtain ⟨h1, h2⟩ := h
  simp at h1 h2
  omega

theorem spec_genPerm {x : PartyID → List (Share (ZMod p))} {vs pub : List (ZMod p)} {f : Fin n → ZMod p} {bitsize : Nat}
    (hw : modBits p + 2 ≤ w) (ho : ty = .yao → p % 2 = 1) (hb : bitsize ≤ w) (hb' : 1 ≤ bitsize) (hn : n < 2 ^ 32) (hx : IsShares x vs)
    (hf : vs ++ pub = List.ofFn f) (hst₀ : Corr ty st₀) (hst₁ : Corr ty st₁) :
    Spec₂ (M := M) (J := J) (fun i => genPerm w (x i) pub bitsize) st₀ st₁ (fun r st₀ st₁ =>
      IsShares r (succs (rankPerm fun j => (f j).val % 2 ^ bitsize)) ∧ Corr ty st₀ ∧ Corr ty st₁) := by
  have hbits : ∀ k, vs.map (bit32 k) ++ pub.map (bit32 k) =
      List.ofFn fun j => if (f j).val.testBit k then 1#32 else 0#32 := by
    intro k
    rw [← List.map_append, hf, map_ofFn']
    rfl
  refine Spec₂.bind (spec_decompose hw ho hb hx hst₀ hst₁) ?_
  rintro bits s₀ s₁ ⟨hbs, hs₀, hs₁⟩
  refine Spec₂.bind (Q₁ := fun r t₀ t₁ => _ ∧ Corr ty t₀ ∧ t₁ = s₁)
    (Spec₂.first ((spec_injectBit hb (k := 0) (by omega) hbs hs₀).mono fun r s h => ⟨h.1, h.2, rfl⟩)) ?_
  rintro b0 t₀ s₁ ⟨hb0, ht₀, rfl⟩
  simp only [injectPublicBit_eq (w := w) (k := 0) (by omega)]
  refine Spec₂.bind (Q₁ := fun r t₀ t₁ => _ ∧ Corr ty t₀ ∧ t₁ = s₁)
    (Spec₂.first ((spec_genBitPerm hb0 (hbits 0) ht₀).mono fun r s h => ⟨h.1, h.2, rfl⟩)) ?_
  rintro perm t₀ s₁ ⟨hp, ht₀, rfl⟩
  have := Spec₂.foldlM (M := M) (J := J) (ι := PartyID) (l := List.range' 1 (bitsize - 1))
    (I := fun k r s₀ s₁ => IsShares r (succs (rankPerm fun j => (f j).val % 2 ^ (k + 1))) ∧ Corr ty s₀ ∧ Corr ty s₁)
    (f := fun i perm k => do
      let privBitI ← MPC₂.first (injectBit (bits i) k)
      let pubBitI := injectPublicBit w pub k
      let bitI ← applyInv perm privBitI pubBitI
      let permI ← MPC₂.first (genBitPerm bitI [])
      MPC₂.first (compose perm permI)) (v := perm) (st₀ := t₀) (st₁ := s₁) ?_ ?_
  · rw [List.length_range', Nat.sub_add_cancel hb'] at this
    exact this
  · rintro k a ha perm s₀ s₁ ⟨hp, hs₀, hs₁⟩
    obtain ⟨rfl, hk⟩ := range'_get ha
    refine Spec₂.bind (Q₁ := fun r t₀ t₁ => _ ∧ Corr ty t₀ ∧ t₁ = s₁)
      (Spec₂.first ((spec_injectBit hb (k := k + 1) (by omega) hbs hs₀).mono fun r s h => ⟨h.1, h.2, rfl⟩)) ?_
    rintro b t₀ s₁ ⟨hb, ht₀, rfl⟩
    simp only [injectPublicBit_eq (w := w) (k := k + 1) (by omega)]
    exact spec_round hn hp hb (hbits (k + 1)) ht₀ hs₁
  · refine ⟨?_, ht₀, hs₁⟩
    rw [rank_one fun j => (f j).val] at hp
    simpa [succs, rankPerm_val] using hp

/-- Keys in order, each marked as private or not: the order vector, the private keys and the public ones. -/
theorem spec_orderLoop {α : Type} (g : α → BitVec 32) (ks : List (Bool × α)) {x : PartyID → PermShare}
    (hx : IsShares x (((ks.filter fun k => k.1).map fun k => k.2).map g)) :
    ∃ r : PartyID → PermShare, (∀ i, orderLoop i (x i) (((ks.filter fun k => !k.1).map fun k => k.2).map g)
      (ks.map fun k => k.1) = some (r i)) ∧ IsShares r ((ks.map fun k => k.2).map g) := by
  obtain ⟨l, rfl, hl⟩ := hx
  induction ks generalizing l with
  | nil => exact ⟨fun _ => [], fun i => by simp [orderLoop], isShares_nil⟩
  | cons k ks ih =>
    obtain ⟨c, v⟩ := k
    cases c with
    | false =>
      simp only [List.filter_cons, Bool.false_eq_true, if_false] at hl
      obtain ⟨r, hr, hs⟩ := ih l hl
      refine ⟨fun i => Ring.promoteToTrivialShare i (g v) :: r i, fun i => ?_, ?_⟩
      · have := hr i
        simp only [List.filter_cons, Bool.not_false, if_true, List.map_cons, orderLoop, this, Option.map_some]
      · exact isShares_cons (IsShare.promote _) hs
    | true =>
      simp only [List.filter_cons, if_true, List.map_cons] at hl
      cases hl with
      | @cons a _ l' _ h hl =>
        obtain ⟨r, hr, hs⟩ := ih _ hl
        refine ⟨fun i => a i :: r i, fun i => ?_, ?_⟩
        rotate_left
        · exact isShares_cons h hs
        · have := hr i
          simp only [List.filter_cons, Bool.not_true, Bool.false_eq_true, if_false, List.map_cons, orderLoop, this,
            Option.map_some]

theorem spec_orderAndPromote {α : Type} (g : α → BitVec 32) (ks : List (Bool × α)) {x : PartyID → PermShare}
    (hx : IsShares x (((ks.filter fun k => k.1).map fun k => k.2).map g)) :
    ∃ r : PartyID → PermShare, (∀ i, orderAndPromote (x i) (((ks.filter fun k => !k.1).map fun k => k.2).map g)
      (ks.map fun k => k.1) i = some (r i)) ∧ IsShares r ((ks.map fun k => k.2).map g) := by
  obtain ⟨r, hr, hs⟩ := spec_orderLoop g ks hx
  refine ⟨r, fun i => ?_, hs⟩
  unfold orderAndPromote
  rw [if_neg, if_neg, hr]
  · simp [List.filter_map, Function.comp_def]
  · simp [Cols.length hx, List.filter_map, Function.comp_def]

theorem spec_genPermOrdered {x : PartyID → List (Share (ZMod p))} {ks : List (Bool × ZMod p)} {f : Fin n → ZMod p}
    {bitsize : Nat} (hw : modBits p + 2 ≤ w) (ho : ty = .yao → p % 2 = 1) (hb : bitsize ≤ w) (hb' : 1 ≤ bitsize) (hn : n < 2 ^ 32)
    (hx : IsShares x ((ks.filter fun k => k.1).map fun k => k.2)) (hf : (ks.map fun k => k.2) = List.ofFn f)
    (hst₀ : Corr ty st₀) (hst₁ : Corr ty st₁) :
    Spec₂ (M := M) (J := J) (fun i => genPermOrdered w (x i) ((ks.filter fun k => !k.1).map fun k => k.2)
        (ks.map fun k => k.1) bitsize) st₀ st₁ (fun r st₀ st₁ =>
      IsShares r (succs (rankPerm fun j => (f j).val % 2 ^ bitsize)) ∧ Corr ty st₀ ∧ Corr ty st₁) := by
  have hbits : ∀ k, (ks.map fun k => k.2).map (bit32 k) ++ [] =
      List.ofFn fun j => if (f j).val.testBit k then 1#32 else 0#32 := by
    intro k
    rw [List.append_nil, hf, map_ofFn']
    rfl
  refine Spec₂.bind (spec_decompose hw ho hb hx hst₀ hst₁) ?_
  rintro bits s₀ s₁ ⟨hbs, hs₀, hs₁⟩
  refine Spec₂.bind (Q₁ := fun r t₀ t₁ => _ ∧ Corr ty t₀ ∧ t₁ = s₁)
    (Spec₂.first ((spec_injectBit hb (k := 0) (by omega) hbs hs₀).mono fun r s h => ⟨h.1, h.2, rfl⟩)) ?_
  rintro b0 t₀ s₁ ⟨hb0, ht₀, rfl⟩
  simp only [injectPublicBit_eq (w := w) (k := 0) (by omega)]
  refine Spec₂.bind (Q₁ := fun r u₀ u₁ => (r = fun i => i) ∧ u₀ = t₀ ∧ u₁ = s₁)
    (Spec₂.first ((spec_stateId ht₀).mono fun r s h => ⟨h.1, h.2, rfl⟩)) ?_
  rintro _ t₀ s₁ ⟨rfl, rfl, rfl⟩
  obtain ⟨o0, ho0, ho0s⟩ := spec_orderAndPromote (bit32 0) ks hb0
  refine Spec₂.bind (Q₁ := fun r u₀ u₁ => r = o0 ∧ u₀ = t₀ ∧ u₁ = s₁)
    (Spec₂.first ((Lut.spec_orPanic ho0).mono fun r s h => ⟨h.1, h.2, rfl⟩)) ?_
  rintro _ t₀ s₁ ⟨rfl, rfl, rfl⟩
  refine Spec₂.bind (Q₁ := fun r t₀ t₁ => _ ∧ Corr ty t₀ ∧ t₁ = s₁)
    (Spec₂.first ((spec_genBitPerm ho0s (hbits 0) ht₀).mono fun r s h => ⟨h.1, h.2, rfl⟩)) ?_
  rintro perm t₀ s₁ ⟨hp, ht₀, rfl⟩
  have := Spec₂.foldlM (M := M) (J := J) (ι := PartyID) (l := List.range' 1 (bitsize - 1))
    (I := fun k r s₀ s₁ => IsShares r (succs (rankPerm fun j => (f j).val % 2 ^ (k + 1))) ∧ Corr ty s₀ ∧ Corr ty s₁)
    (f := fun i perm k => do
      let privBitI ← MPC₂.first (injectBit (bits i) k)
      let pubBitI := injectPublicBit w ((ks.filter fun k => !k.1).map fun k => k.2) k
      let bitI ← MPC₂.first (orPanic (orderAndPromote privBitI pubBitI (ks.map fun k => k.1) i))
      let bitI ← applyInv perm bitI []
      let permI ← MPC₂.first (genBitPerm bitI [])
      MPC₂.first (compose perm permI)) (v := perm) (st₀ := t₀) (st₁ := s₁) ?_ ?_
  · rw [List.length_range', Nat.sub_add_cancel hb'] at this
    exact this
  · rintro k a ha perm s₀ s₁ ⟨hp, hs₀, hs₁⟩
    obtain ⟨rfl, hk⟩ := range'_get ha
    refine Spec₂.bind (Q₁ := fun r t₀ t₁ => _ ∧ Corr ty t₀ ∧ t₁ = s₁)
      (Spec₂.first ((spec_injectBit hb (k := k + 1) (by omega) hbs hs₀).mono fun r s h => ⟨h.1, h.2, rfl⟩)) ?_
    rintro b t₀ s₁ ⟨hb, ht₀, rfl⟩
    simp only [injectPublicBit_eq (w := w) (k := k + 1) (by omega)]
    obtain ⟨o, ho, hos⟩ := spec_orderAndPromote (bit32 (k + 1)) ks hb
    refine Spec₂.bind (Q₁ := fun r u₀ u₁ => r = o ∧ u₀ = t₀ ∧ u₁ = s₁)
      (Spec₂.first ((Lut.spec_orPanic ho).mono fun r s h => ⟨h.1, h.2, rfl⟩)) ?_
    rintro _ _ _ ⟨rfl, rfl, rfl⟩
    exact spec_round hn hp hos (hbits (k + 1)) ht₀ hs₁
  · refine ⟨?_, ht₀, hs₁⟩
    rw [rank_one fun j => (f j).val] at hp
    simpa [succs, rankPerm_val] using hp

variable [Codec J (List (Share (ZMod p)))]

theorem isShares_promoted (pub : List (ZMod p)) : IsShares (fun i => pub.map fun v => promoteToTrivialShare i v) pub := by
  have := Cols.map (Q := IsShare) (f := fun i (v : ZMod p) => promoteToTrivialShare i v) (g := id)
    (Lut.cols_const (P := fun (x : PartyID → ZMod p) v => x = fun _ => v) (l := pub) fun _ _ => rfl)
    (by rintro _ v rfl; exact IsShare.promote v)
  rwa [List.map_id] at this

theorem spec_radixSortFields {x : PartyID → List (Share (ZMod p))} {vs pub : List (ZMod p)} {bitsize : Nat}
    (hw : modBits p + 2 ≤ w) (ho : ty = .yao → p % 2 = 1) (hb : bitsize ≤ w) (hb' : 1 ≤ bitsize) (hn : vs.length + pub.length ≤ 2 ^ 32 - 1)
    (hx : IsShares x vs) (hst₀ : Corr ty st₀) (hst₁ : Corr ty st₁) :
    Spec₂ (M := M) (J := J) (fun i => radixSortFields w (x i) pub bitsize) st₀ st₁ (fun r st₀ st₁ =>
      IsShares r ((vs ++ pub).mergeSort fun a b => decide (a.val % 2 ^ bitsize ≤ b.val % 2 ^ bitsize)) ∧
        Corr ty st₀ ∧ Corr ty st₁) := by
  obtain ⟨f, hf⟩ := list_eq_ofFn (n := vs.length + pub.length) (vs ++ pub) (by simp)
  have hl : ∀ i, (x i).length = vs.length := Cols.length hx
  simp only [radixSortFields, hl, if_neg (Nat.not_lt.2 hn), gt_iff_lt]
  refine Spec₂.bind (spec_genPerm hw ho hb hb' (by omega) hx hf hst₀ hst₁) ?_
  rintro perm s₀ s₁ ⟨hp, hs₀, hs₁⟩
  refine Spec₂.bind (Q₁ := fun r u₀ u₁ => (r = fun i => i) ∧ u₀ = s₀ ∧ u₁ = s₁)
    (Spec₂.first ((spec_stateId hs₀).mono fun r s h => ⟨h.1, h.2, rfl⟩)) ?_
  rintro _ _ _ ⟨rfl, rfl, rfl⟩
  refine (spec_applyInv (by omega) hp (Cols.append hx (isShares_promoted pub)) ((List.append_nil _).trans hf) hs₀ hs₁).mono ?_
  rintro r s₀ s₁ ⟨hr, hs⟩
  refine ⟨?_, hs⟩
  rw [hf, mergeSort_ofFn f fun v => v.val % 2 ^ bitsize]
  exact hr

/-- With bit size zero the private inputs are treated as equal, but public ones are ordered by their lowest bit. -/
theorem spec_radixSortFields_zero {x : PartyID → List (Share (ZMod p))} {vs pub : List (ZMod p)}
    (hw : modBits p + 2 ≤ w) (ho : ty = .yao → p % 2 = 1) (hn : vs.length + pub.length ≤ 2 ^ 32 - 1)
    (hx : IsShares x vs) (hst₀ : Corr ty st₀) (hst₁ : Corr ty st₁) :
    Spec₂ (M := M) (J := J) (fun i => radixSortFields w (x i) pub 0) st₀ st₁ (fun r st₀ st₁ =>
      IsShares r ((((vs.map fun v : ZMod p => (v, 0)) ++ pub.map fun v : ZMod p => (v, v.val % 2)).mergeSort
          (fun a b => decide (a.2 ≤ b.2))).map fun a : ZMod p × Nat => a.1) ∧
        Corr ty st₀ ∧ Corr ty st₁) := by
  obtain ⟨g, hg⟩ := list_eq_ofFn (n := vs.length + pub.length)
    ((vs.map fun v : ZMod p => (v, 0)) ++ pub.map fun v : ZMod p => (v, v.val % 2)) (by simp)
  have hf : vs ++ pub = List.ofFn fun j => (g j).1 := by
    rw [← map_ofFn' (fun a : ZMod p × Nat => a.1), ← hg]
    simp [Function.comp_def]
  have hb : (vs.map fun _ => 0#32) ++ pub.map (bit32 0) =
      List.ofFn fun j => if (g j).2.testBit 0 then 1#32 else 0#32 := by
    rw [← map_ofFn' (fun a : ZMod p × Nat => if a.2.testBit 0 then 1#32 else 0#32), ← hg]
    simp [Function.comp_def, bit32]
  have hlt : ∀ j, (g j).2 % 2 ^ 1 = (g j).2 := by
    intro j
    have : g j ∈ (vs.map fun v : ZMod p => (v, 0)) ++ pub.map fun v : ZMod p => (v, v.val % 2) := by
      rw [hg]; exact (List.mem_ofFn' _ _).2 ⟨j, rfl⟩
    rw [pow_one]
    simp only [List.mem_append, List.mem_map] at this
    rcases this with ⟨v, _, hv⟩ | ⟨v, _, hv⟩ <;> simp [← hv]
  have hl : ∀ i, (x i).length = vs.length := Cols.length hx
  simp only [radixSortFields, hl, if_neg (Nat.not_lt.2 hn), gt_iff_lt]
  refine Spec₂.bind (Q₁ := fun r st₀ st₁ => IsShares r (succs (rankPerm fun j => (g j).2)) ∧
    Corr ty st₀ ∧ Corr ty st₁) ?_ ?_
  · refine Spec₂.bind (spec_decompose hw ho (Nat.zero_le _) hx hst₀ hst₁) ?_
    rintro bits s₀ s₁ ⟨hbs, hs₀, hs₁⟩
    have hbits : IsBitShares (fun i => (bits i).map fun inp =>
        (⟨BitVec.ofNat 32 (inp.a.getLsbD 0).toNat, BitVec.ofNat 32 (inp.b.getLsbD 0).toNat⟩ : Share (BitVec 32)))
        (vs.map fun _ => false) := by
      have := Cols.map (Q := IsBitShare) (f := fun _ (inp : Share (BitVec w)) =>
          (⟨BitVec.ofNat 32 (inp.a.getLsbD 0).toNat, BitVec.ofNat 32 (inp.b.getLsbD 0).toNat⟩ : Share (BitVec 32)))
        (g := fun v : BitVec w => v.getLsbD 0) hbs (fun x v h => isBitShare_getLsbD h 0)
      rw [List.map_map] at this
      rwa [show ((fun v : BitVec w => v.getLsbD 0) ∘ fun v : ZMod p => Uint.ofField w v &&& Uint.mask w 0) =
        fun v => false from funext fun v => by
          simp only [Function.comp, Uint.ofField, BitVec.getLsbD_and, BitVec.getLsbD_ofNat, Uint.getLsbD_mask,
            Nat.not_lt_zero, decide_false, Bool.and_false]] at this
    refine Spec₂.bind (Q₁ := fun r t₀ t₁ => IsShares r (vs.map fun _ => 0#32) ∧ Corr ty t₀ ∧ t₁ = s₁)
      (Spec₂.first ((Ring.spec_bitInjectMany hbits hs₀).mono fun r s h => ⟨by simpa [Function.comp_def] using h.1, h.2, rfl⟩)) ?_
    rintro b0 t₀ s₁ ⟨hb0, ht₀, rfl⟩
    simp only [injectPublicBit_eq (w := w) (k := 0) (by omega)]
    refine Spec₂.bind (Q₁ := fun r t₀ t₁ => _ ∧ Corr ty t₀ ∧ t₁ = s₁)
      (Spec₂.first ((spec_genBitPerm hb0 hb ht₀).mono fun r s h => ⟨h.1, h.2, rfl⟩)) ?_
    rintro perm t₀ s₁ ⟨hp, ht₀, rfl⟩
    refine Spec₂.pure ⟨?_, ht₀, hs₁⟩
    rw [rank_one fun j => (g j).2] at hp
    simp only [hlt] at hp
    simpa [succs, rankPerm_val] using hp
  rintro perm s₀ s₁ ⟨hp, hs₀, hs₁⟩
  refine Spec₂.bind (Q₁ := fun r u₀ u₁ => (r = fun i => i) ∧ u₀ = s₀ ∧ u₁ = s₁)
    (Spec₂.first ((spec_stateId hs₀).mono fun r s h => ⟨h.1, h.2, rfl⟩)) ?_
  rintro _ _ _ ⟨rfl, rfl, rfl⟩
  refine (spec_applyInv (by omega) hp (Cols.append hx (isShares_promoted pub)) ((List.append_nil _).trans hf) hs₀ hs₁).mono ?_
  rintro r s₀ s₁ ⟨hr, hs⟩
  refine ⟨?_, hs⟩
  rw [hg, mergeSort_ofFn g fun v => v.2, map_ofFn']
  exact hr

theorem spec_radixSortFieldsVecBy {x : PartyID → List (Share (ZMod p))} {ks : List (Bool × ZMod p)}
    {inputs : List (PartyID → List (Share (ZMod p)))} {ins : List (List (ZMod p))}
    {bitsize : Nat} (hw : modBits p + 2 ≤ w) (ho : ty = .yao → p % 2 = 1) (hb : bitsize ≤ w) (hb' : 1 ≤ bitsize) (hn : ks.length ≤ 2 ^ 32 - 1)
    (hx : IsShares x ((ks.filter fun k => k.1).map fun k => k.2)) (hi : List.Forall₂ IsShares inputs ins)
    (hlen : ∀ l ∈ ins, l.length = ks.length)
    (hst₀ : Corr ty st₀) (hst₁ : Corr ty st₁) :
    Spec₂ (M := M) (J := J) (fun i => radixSortFieldsVecBy w (x i) ((ks.filter fun k => !k.1).map fun k => k.2)
        (ks.map fun k => k.1) (inputs.map (· i)) bitsize) st₀ st₁ (fun r st₀ st₁ =>
      (∃ rs : List (PartyID → List (Share (ZMod p))), (r = fun i => rs.map (· i)) ∧
        List.Forall₂ IsShares rs (ins.map fun l =>
          ((ks.zip l).mergeSort fun a b => decide (a.1.2.val % 2 ^ bitsize ≤ b.1.2.val % 2 ^ bitsize)).map fun a => a.2)) ∧
        Corr ty st₀ ∧ Corr ty st₁) := by
  obtain ⟨n, hkn⟩ : ∃ n, ks.length = n := ⟨_, rfl⟩
  obtain ⟨f, rfl⟩ := list_eq_ofFn (n := n) ks hkn
  have hcount : ∀ l : List (Bool × ZMod p), (l.filter fun k => k.1).length + (l.filter fun k => !k.1).length = l.length := by
    intro l
    induction l with
    | nil => rfl
    | cons a l ih => cases h : a.1 <;> simp [List.filter_cons, h] <;> omega
  have hl : ∀ i, (x i).length + (((List.ofFn f).filter fun k => !k.1).map fun k => k.2).length = n := by
    intro i
    rw [Cols.length hx, List.length_map, List.length_map, hcount, List.length_ofFn]
  rw [List.length_ofFn] at hn
  simp only [radixSortFieldsVecBy, hl, if_neg (Nat.not_lt.2 hn), gt_iff_lt]
  refine Spec₂.bind (spec_genPermOrdered (f := fun j => (f j).2) hw ho hb hb' (by omega) hx (map_ofFn' _ _) hst₀ hst₁) ?_
  rintro perm s₀ s₁ ⟨hp, hs₀, hs₁⟩
  induction hi generalizing s₀ s₁ with
  | nil => exact Spec₂.pure ⟨⟨[], rfl, .nil⟩, hs₀, hs₁⟩
  | @cons a l _ _ ha _ ih =>
    simp only [List.map_cons, List.mapM_cons]
    obtain ⟨g, rfl⟩ := list_eq_ofFn (n := n) l (by rw [hlen l (by simp)]; simp)
    refine Spec₂.bind (spec_applyInv (f := g) (pub := []) (by omega) hp ha (List.append_nil _) hs₀ hs₁) ?_
    rintro r s₀ s₁ ⟨hr, hs₀, hs₁⟩
    refine Spec₂.bind (ih (fun l hl => hlen l (by simp [hl])) s₀ s₁ hs₀ hs₁) ?_
    rintro _ s₀ s₁ ⟨⟨rs, rfl, hrs⟩, hs₀, hs₁⟩
    refine Spec₂.pure ⟨⟨r :: rs, rfl, .cons ?_ hrs⟩, hs₀, hs₁⟩
    rw [ofFn_zip, mergeSort_ofFn (fun j => (f j, g j)) fun v => v.1.2.val % 2 ^ bitsize, map_ofFn']
    exact hr

end Fields

end Verif.Rep3.Radix
