import Verif.Plonk.SimLocal
import Verif.Plonk.RoundLemmas

/-!
# Lemmas: the PLONK prover over a driver does what the reference does

`Sim` collects what the proof needs of a driver.  A call is described by `MS k p Q`: it needs a supply of `k` random pairs and
ends with results that satisfy `Q`.
-/

namespace Verif.Plonk

open Groth16 (FftParams resize Cols.ofFn)

theorem mapM_forall₂ {α β : Type} (f : α → Except Err β) (l : List α) (v : List β) (h : l.mapM f = .ok v) :
    List.Forall₂ (fun x y => f x = .ok y) l v := by
  induction l generalizing v with
  | nil => rw [List.mapM_nil] at h; cases h; exact .nil
  | cons x l ih =>
    rw [List.mapM_cons] at h
    cases hx : f x with
    | error e => rw [hx, error_bind] at h; cases h
    | ok y =>
      rw [hx, ok_bind] at h
      cases hl : l.mapM f with
      | error e => rw [hl, error_bind] at h; cases h
      | ok ys =>
        rw [hl, ok_bind] at h
        cases h
        exact .cons hx (ih ys hl)

variable {ι F A G B H : Type} {m c : Type → Type} [Monad m] [Monad c] [Field F] [DecidableEq F] [Zero A] [Add A] [Sub A] [Neg A]
  [SMul F A] [AddCommGroup G] [Module F G]

/-- What the proof needs of a driver. -/
structure Sim (D : ι → Driver m c F A G B) (P : (ι → A) → F → Prop) (PB : (ι → B) → G → Prop)
    (MS : {α : Type} → Nat → (ι → m α) → ((ι → α) → Prop) → Prop)
    (CS : {α : Type} → Nat → (ι → c α) → ((ι → α) → Prop) → Prop) : Prop where
  linear : Linear P (fun i => (D i).addPub) (fun i => (D i).promote)
  evalPoly : ∀ {s : ι → List A} {v : List F} (x : F), Cols P s v → v ≠ [] →
    P (fun i => (D i).evalPoly (s i) x) (evalPublic v x)
  msm : ∀ {s : ι → List A} {v : List F} (pts : List G), Cols P s v →
    PB (fun i => (D i).msm pts (s i)) (Rep3.Point.msm pts v)
  mPure : ∀ {α : Type} {a : ι → α} {Q : (ι → α) → Prop}, Q a → MS 0 (fun i => pure (a i)) Q
  mBind : ∀ {α β : Type} {k j : Nat} {q : ι → m α} {f : ι → α → m β} {Q : (ι → α) → Prop} {Q' : (ι → β) → Prop},
    MS k q Q → (∀ a, Q a → MS j (fun i => f i (a i)) Q') → MS (k + j) (fun i => q i >>= f i) Q'
  cBind : ∀ {α β : Type} {k j : Nat} {q : ι → c α} {f : ι → α → c β} {Q : (ι → α) → Prop} {Q' : (ι → β) → Prop},
    CS k q Q → (∀ a, Q a → CS j (fun i => f i (a i)) Q') → CS (k + j) (fun i => q i >>= f i) Q'
  cPure : ∀ {α : Type} {a : ι → α} {Q : (ι → α) → Prop}, Q a → CS 0 (fun i => pure (a i)) Q
  mMono : ∀ {α : Type} {k : Nat} {q : ι → m α} {Q Q' : (ι → α) → Prop}, MS k q Q → (∀ a, Q a → Q' a) → MS k q Q'
  mWeak : ∀ {α : Type} {k j : Nat} {q : ι → m α} {Q : (ι → α) → Prop}, MS k q Q → k ≤ j → MS j q Q
  cWeak : ∀ {α : Type} {k j : Nat} {q : ι → c α} {Q : (ι → α) → Prop}, CS k q Q → k ≤ j → CS j q Q
  cMono : ∀ {α : Type} {k : Nat} {q : ι → c α} {Q Q' : (ι → α) → Prop}, CS k q Q → (∀ a, Q a → Q' a) → CS k q Q'
  first : ∀ {α : Type} {k : Nat} {q : ι → c α} {Q : (ι → α) → Prop}, CS k q Q → MS k (fun i => (D i).first (q i)) Q
  join : ∀ (qs : List (Nat × (ι → c (List A)) × ((ι → List A) → Prop))), qs.length ≤ 8 → (∀ x ∈ qs, 0 < x.1) →
    (∀ x ∈ qs, CS x.1 x.2.1 x.2.2) →
    MS (qs.map (·.1)).sum (fun i => (D i).join (qs.map fun x => (x.1, x.2.1 i)))
      (fun a => ∃ l : List (ι → List A), List.Forall₂ (fun x s => x.2.2 s) qs l ∧ a = fun i => l.map (· i))
  rand : CS 1 (fun i => (D i).rand) (fun a => ∃ x, P a x)
  mulVec : ∀ {s t : ι → List A} {v u : List F}, Cols P s v → Cols P t u → v.length = u.length →
    CS v.length (fun i => (D i).mulVec (s i) (t i)) (fun r => Cols P r (List.zipWith (· * ·) v u))
  addMulVec : ∀ {r s t : ι → List A} {w v u : List F}, Cols P r w → Cols P s v → Cols P t u → v.length = u.length →
    w.length = v.length → CS v.length (fun i => (D i).addMulVec (r i) (s i) (t i))
      (fun r => Cols P r (List.zipWith (· + ·) (List.zipWith (· * ·) v u) w))
  openVec : ∀ {s : ι → List A} {v : List F}, Cols P s v → CS 0 (fun i => (D i).openVec (s i)) (fun r => r = fun _ => v)
  openPoints : ∀ {s : ι → List B} {v : List G}, Cols PB s v → CS 0 (fun i => (D i).openPoints (s i)) (fun r => r = fun _ => v)
  openPoint : ∀ {s : ι → B} {v : G}, PB s v → CS 0 (fun i => (D i).openPoint (s i)) (fun r => r = fun _ => v)

/-- What it needs of the products of round 2, the only calls that can fail. -/
def ProdSim (D : ι → Driver m c F A G B) (P : (ι → A) → F → Prop)
    (CS : {α : Type} → Nat → (ι → c α) → ((ι → α) → Prop) → Prop) : Prop :=
  ∀ (inv : Bool) {r s t : ι → List A} {w v u res : List F}, Cols P r w → Cols P s v → Cols P t u →
    w.length = v.length → v.length = u.length → arrayProd inv w v u = .ok res →
    CS (if inv then w.length * 7 + 2 else w.length * 6 + 2) (fun i => (D i).arrayProdMul inv (r i) (s i) (t i))
      (fun a => Cols P a res)

/-- If the reference succeeds so do the parties, with related results. -/
def Rel {α β : Type} {m : Type → Type} (MS : {α : Type} → Nat → (ι → m α) → ((ι → α) → Prop) → Prop) (k : Nat)
    (Q : (ι → α) → β → Prop) (q : ι → m α) (r : Except Err β) : Prop :=
  ∀ v, r = .ok v → MS k q (fun a => Q a v)

variable {D : ι → Driver m c F A G B} {P : (ι → A) → F → Prop} {PB : (ι → B) → G → Prop}
    {MS : {α : Type} → Nat → (ι → m α) → ((ι → α) → Prop) → Prop}
    {CS : {α : Type} → Nat → (ι → c α) → ((ι → α) → Prop) → Prop} (S : Sim D P PB MS CS)

/-- A vector of `n` shared values. -/
def Vec (P : (ι → A) → F → Prop) (n : Nat) (s : ι → List A) (v : List F) : Prop := Cols P s v ∧ v.length = n

include S

omit [Zero A] [Add A] [Sub A] [Neg A] [SMul F A] [Field F] [DecidableEq F] S in
theorem vec_ofFn {n : Nat} {f : ι → Nat → A} {g : Nat → F} (h : Cols P (fun i => (List.range n).map (f i)) ((List.range n).map g)) :
    Vec P n (fun i => (List.range n).map (f i)) ((List.range n).map g) := ⟨h, by simp⟩

theorem Sim.pure {α β : Type} {Q : (ι → α) → β → Prop} {a : ι → α} {v : β} {k : Nat} (h : Q a v) :
    Rel MS k Q (fun i => pure (a i)) (.ok v) := by
  rintro _ ⟨⟩; exact S.mWeak (S.mPure h) (Nat.zero_le _)

theorem Sim.bind {α β α' β' : Type} {Q : (ι → α) → β → Prop} {Q' : (ι → α') → β' → Prop} {k j : Nat} {q : ι → m α}
    {r : Except Err β} {f : ι → α → m α'} {g : β → Except Err β'} (h : Rel MS k Q q r)
    (h' : ∀ a v, r = .ok v → Q a v → Rel MS (j - k) Q' (fun i => f i (a i)) (g v)) (hk : k ≤ j := by omega) : Rel MS j Q' (fun i => q i >>= f i) (r >>= g) := by
  intro v hv
  cases r with
  | error e => cases hv
  | ok u =>
    have := S.mBind (h u rfl) fun a ha => h' a u rfl ha v hv
    rwa [Nat.add_sub_cancel' hk] at this

theorem Sim.bindC {α β α' β' : Type} {Q : (ι → α) → β → Prop} {Q' : (ι → α') → β' → Prop} {k j : Nat} {q : ι → c α}
    {r : Except Err β} {f : ι → α → c α'} {g : β → Except Err β'} (h : Rel CS k Q q r)
    (h' : ∀ a v, r = .ok v → Q a v → Rel CS (j - k) Q' (fun i => f i (a i)) (g v)) (hk : k ≤ j := by omega) : Rel CS j Q' (fun i => q i >>= f i) (r >>= g) := by
  intro v hv
  cases r with
  | error e => cases hv
  | ok u =>
    have := S.cBind (h u rfl) fun a ha => h' a u rfl ha v hv
    rwa [Nat.add_sub_cancel' hk] at this

theorem Sim.weakC {α β : Type} {Q : (ι → α) → β → Prop} {k j : Nat} {q : ι → c α} {r : Except Err β} (h : Rel CS k Q q r)
    (hk : k ≤ j := by omega) : Rel CS j Q q r := fun v hv => S.cWeak (h v hv) hk

theorem Sim.loc {α β : Type} {Q : (ι → α) → β → Prop} {f : ι → Except Err α} {r : Except Err β} (h : LRel Q f r) :
    Rel MS 0 Q (fun i => local' (D i) (f i)) (local' (reference (F := F) (G := G)) r) := by
  rw [local_reference]
  intro v hv
  obtain ⟨a, ha, hQ⟩ := h v hv
  have e : (fun i => local' (D i) (f i)) = fun i => (Pure.pure (a i) : m α) := by
    funext i; rw [ha i]; rfl
  rw [e]
  exact S.mPure hQ

/-- A check of public data. -/
theorem Sim.check (r : Except Err Unit) :
    Rel MS 0 (fun _ _ => True) (fun i => local' (D i) r) (local' (reference (F := F) (G := G)) r) :=
  S.loc ((LRel.pub r).mono fun _ _ _ => trivial)

theorem Sim.first' {α β : Type} {Q : (ι → α) → β → Prop} {k : Nat} {q : ι → c α} {r : Except Err β} (h : Rel CS k Q q r) :
    Rel MS k Q (fun i => (D i).first (q i)) ((reference (F := F) (G := G)).first r) := fun v hv => S.first (h v hv)

theorem Sim.mulVec' {n : Nat} {s t : ι → List A} {v u : List F} (hs : Vec P n s v) (ht : Vec P n t u) :
    Rel CS n (Vec P n) (fun i => (D i).mulVec (s i) (t i)) ((reference (F := F) (G := G)).mulVec v u) := by
  rintro _ ⟨⟩
  obtain ⟨hs, rfl⟩ := hs
  exact S.cMono (S.mulVec hs ht.1 ht.2.symm) fun a ha => ⟨ha, by simp [ht.2]⟩

theorem Sim.addMulVec' {n : Nat} {r s t : ι → List A} {w v u : List F} (hr : Vec P n r w) (hs : Vec P n s v) (ht : Vec P n t u) :
    Rel CS n (Vec P n) (fun i => (D i).addMulVec (r i) (s i) (t i)) ((reference (F := F) (G := G)).addMulVec w v u) := by
  rintro _ ⟨⟩
  obtain ⟨hs, rfl⟩ := hs
  exact S.cMono (S.addMulVec hr.1 hs ht.1 ht.2.symm hr.2) fun a ha => ⟨ha, by simp [ht.2, hr.2]⟩

theorem Sim.openPoints' {s : ι → List B} {v : List G} (h : Cols PB s v) :
    Rel CS 0 (fun r u => r = fun _ => u) (fun i => (D i).openPoints (s i)) ((reference (F := F) (G := G)).openPoints v) := by
  rintro _ ⟨⟩
  exact S.openPoints h

theorem Sim.openPoint' {s : ι → B} {v : G} (h : PB s v) :
    Rel CS 0 (fun r u => r = fun _ => u) (fun i => (D i).openPoint (s i)) ((reference (F := F) (G := G)).openPoint v) := by
  rintro _ ⟨⟩
  exact S.openPoint h

theorem Sim.openVec' {s : ι → List A} {v : List F} (h : Cols P s v) :
    Rel CS 0 (fun r u => r = fun _ => u) (fun i => (D i).openVec (s i)) ((reference (F := F) (G := G)).openVec v) := by
  rintro _ ⟨⟩
  exact S.openVec h

theorem Sim.join' {n : Nat} (qs : List (Nat × (ι → c (List A)) × Except Err (List F))) (hlen : qs.length ≤ 8)
    (hpos : ∀ x ∈ qs, 0 < x.1) (h : ∀ x ∈ qs, Rel CS x.1 (Vec P n) x.2.1 x.2.2) :
    Rel MS (qs.map (·.1)).sum (fun a v => Cols (Vec P n) a v ∧ v.length = qs.length)
      (fun i => (D i).join (qs.map fun x => (x.1, x.2.1 i)))
      ((reference (F := F) (G := G)).join (qs.map fun x => (x.1, x.2.2))) := by
  intro v hv
  have h2 : List.Forall₂ (fun x y => x.2.2 = .ok y) qs v := by
    have := mapM_forall₂ (fun x : Nat × Except Err (List F) => x.2) _ v hv
    rwa [List.forall₂_map_left_iff] at this
  have hlen2 := h2.length_eq
  clear hv
  let qs' := List.zipWith (fun (x : Nat × (ι → c (List A)) × Except Err (List F)) (u : List F) =>
    ((x.1, x.2.1, fun a => Vec P n a u) : Nat × (ι → c (List A)) × ((ι → List A) → Prop))) qs v
  have e1 : qs'.map (·.1) = qs.map (·.1) := by
    simp only [qs']
    clear h hlen hlen2 hpos
    induction h2 with
    | nil => rfl
    | cons _ _ ih => simp [ih]
  have e2 : ∀ i, (qs'.map fun x => (x.1, x.2.1 i)) = qs.map fun x => (x.1, x.2.1 i) := by
    intro i
    simp only [qs']
    clear h hlen hlen2 hpos e1 qs'
    induction h2 with
    | nil => rfl
    | cons _ _ ih => simp [ih]
  have h5 : ∀ x ∈ qs', 0 < x.1 := by
    intro x hx
    have : x.1 ∈ qs'.map (·.1) := List.mem_map_of_mem hx
    rw [e1] at this
    obtain ⟨y, hy, e⟩ := List.mem_map.mp this
    rw [← e]; exact hpos y hy
  have h3 : ∀ x ∈ qs', CS x.1 x.2.1 x.2.2 := by
    simp only [qs']
    clear hlen hlen2 e1 e2 h5 hpos qs'
    induction h2 with
    | nil => simp
    | @cons x u l us hx _ ih =>
      intro y hy
      simp only [List.zipWith_cons_cons, List.mem_cons] at hy
      rcases hy with rfl | hy
      · exact h x (by simp) u hx
      · exact ih (fun z hz => h z (by simp [hz])) y hy
  have h4 := S.join qs' (by simp only [qs', List.length_zipWith]; omega) h5 h3
  rw [e1] at h4
  simp only [e2] at h4
  refine S.mMono h4 ?_
  rintro a ⟨l, hl, rfl⟩
  refine ⟨⟨l, rfl, ?_⟩, hlen2.symm⟩
  simp only [qs'] at hl
  clear hlen hlen2 e1 e2 h3 h4 h5 hpos qs' h
  induction h2 generalizing l with
  | nil => cases hl; exact .nil
  | cons _ _ ih =>
    cases hl with
    | cons h hl => exact .cons h (ih _ hl)

omit [Field F] [DecidableEq F] [Zero A] [Add A] [Sub A] [Neg A] [SMul F A] [AddCommGroup G] [Module F G] S in
theorem vec_get {n j : Nat} {a : ι → List (List A)} {v : List (List F)} (h : Cols (Vec P n) a v ∧ v.length = j) (k : Nat) (hk : k < j) :
    Vec P n (fun i => (a i).getD k []) (v.getD k []) := by
  obtain ⟨⟨l, rfl, hl⟩, rfl⟩ := h
  have hk' : k < l.length := by rw [hl.length_eq]; exact hk
  have := List.Forall₂.get hl hk' hk
  simpa [List.getD_eq_getElem?_getD, List.getElem?_eq_getElem hk, List.getElem?_eq_getElem hk'] using this

theorem Sim.commit (pTau : List G) {s : ι → List A} {v : List F} (h : Cols P s v) :
    Rel MS 0 PB (fun i => commit (D i) pTau (s i)) (commit (reference (F := F)) pTau v) := by
  have e : (fun i => Plonk.commit (D i) pTau (s i)) = fun i =>
      (local' (D i) (atLeast v.length pTau) >>= fun _ => Pure.pure ((D i).msm (pTau.take v.length) (s i))) := by
    funext i; rw [Plonk.commit, h.length i]
  rw [e]
  refine S.bind (f := fun i _ => Pure.pure ((D i).msm (pTau.take v.length) (s i))) (S.check _) fun _ _ _ _ => ?_
  exact S.pure (S.msm _ h)

/-! ### Round 1 -/

omit [DecidableEq F] [AddCommGroup G] [Module F G] S in
theorem interpolate_eval (dom : Domains F) (v u : List F) : (interpolate dom v u).eval.length = dom.size * 4 := by
  simp [interpolate, fftOn, Groth16.fft, resize]; omega

omit [DecidableEq F] [AddCommGroup G] [Module F G] S in
theorem interpolate_poly (dom : Domains F) (v u : List F) (h : u ≠ []) : (interpolate dom v u).poly ≠ [] := by
  simp [interpolate, blindCoefficients, h]

/-- Wires whose polynomials are not empty and which have one value per point of the extended domain. -/
structure Wires.Good (dom : Domains F) (ws : Wires F) : Prop where
  a : ws.a.eval.length = dom.size * 4
  b : ws.b.eval.length = dom.size * 4
  c : ws.c.eval.length = dom.size * 4
  pa : ws.a.poly ≠ []
  pb : ws.b.poly ≠ []
  pc : ws.c.poly ≠ []

omit [AddCommGroup G] [Module F G] S in
theorem wirePoly_good (key : Zkey F G H) (dom : Domains F) (pub wit adds blind : List F) (map : List Nat) (w : Wire F)
    (hb : blind ≠ []) (h : wirePoly (fun x => x) key dom pub wit adds blind map = .ok w) :
    w.eval.length = dom.size * 4 ∧ w.poly ≠ [] := by
  unfold wirePoly at h
  cases hm : map.mapM (getWitness (fun x => x) key pub wit adds) with
  | error e => rw [hm, error_bind] at h; cases h
  | ok v =>
    rw [hm, ok_bind] at h
    cases h
    exact ⟨interpolate_eval _ _ _, interpolate_poly _ _ _ hb⟩

omit [AddCommGroup G] [Module F G] S in
theorem wirePolys_good (key : Zkey F G H) (dom : Domains F) (pub wit adds b : List F) (ws : Wires F) (hb : b.length = 11)
    (h : wirePolys (fun x => x) key dom pub wit adds b = .ok ws) : ws.Good dom := by
  unfold wirePolys at h
  have h0 : b.take 2 ≠ [] := fun e => by have := congrArg List.length e; simp [hb] at this
  have h1 : (b.drop 2).take 2 ≠ [] := fun e => by have := congrArg List.length e; simp [hb] at this
  have h2 : (b.drop 4).take 2 ≠ [] := fun e => by have := congrArg List.length e; simp [hb] at this
  cases ha : wirePoly (fun x => x) key dom pub wit adds (b.take 2) key.mapA with
  | error e => rw [ha, error_bind] at h; cases h
  | ok wa =>
  rw [ha, ok_bind] at h
  cases hb : wirePoly (fun x => x) key dom pub wit adds ((b.drop 2).take 2) key.mapB with
  | error e => rw [hb, error_bind] at h; cases h
  | ok wb =>
  rw [hb, ok_bind] at h
  cases hc : wirePoly (fun x => x) key dom pub wit adds ((b.drop 4).take 2) key.mapC with
  | error e => rw [hc, error_bind] at h; cases h
  | ok wc =>
  rw [hc, ok_bind] at h
  have ga := wirePoly_good _ _ _ _ _ _ _ _ h0 ha
  have gb := wirePoly_good _ _ _ _ _ _ _ _ h1 hb
  have gc := wirePoly_good _ _ _ _ _ _ _ _ h2 hc
  have e : ws = ⟨wa, wb, wc⟩ := by
    unfold maxLen at h
    split_ifs at h <;> first | (cases h; rfl) | cases h
  subst e
  exact ⟨ga.1, gb.1, gc.1, ga.2, gb.2, gc.2⟩

omit S in
theorem wirePolys_round1 {key : Zkey F G H} {dom : Domains F} {pub wit adds b : List F} {r : Wires F × List G}
    (h : round1 reference key dom pub wit adds b = .ok r) :
    wirePolys (fun x => x) key dom pub wit adds b = .ok r.1 := by
  unfold round1 at h
  rw [local_reference] at h
  change (wirePolys (fun x => x) key dom pub wit adds b >>= _) = _ at h
  cases hw : wirePolys (fun x => x) key dom pub wit adds b with
  | error e => rw [hw, error_bind] at h; cases h
  | ok ws =>
    rw [hw, ok_bind] at h
    have key : ∀ {α : Type} (x : Except Err α) (f : α → Except Err (Wires F × List G)), (x >>= f) = .ok r →
        ∃ y, f y = .ok r := by
      intro α x f h
      cases x with
      | error e => cases h
      | ok y => exact ⟨y, h⟩
    obtain ⟨_, h⟩ := key _ _ h
    obtain ⟨_, h⟩ := key _ _ h
    obtain ⟨_, h⟩ := key _ _ h
    obtain ⟨_, h⟩ := key _ _ h
    cases h
    rfl

theorem Sim.round1 (key : Zkey F G H) (dom : Domains F) (pub : List F) {wit adds b : ι → List A} {w a bl : List F}
    (hw : Cols P wit w) (ha : Cols P adds a) (hb : Cols P b bl) :
    Rel MS 0 (fun r v => WiresRel P (fun i => (r i).1) v.1 ∧ (fun i => (r i).2) = fun _ => v.2)
      (fun i => round1 (D i) key dom pub (wit i) (adds i) (b i)) (round1 reference key dom pub w a bl) := by
  unfold Plonk.round1
  refine S.bind (S.loc (S.linear.wirePolys key dom pub hw ha hb)) fun ws wv _ hws => ?_
  refine S.bind (S.commit _ hws.a.poly) fun _ _ _ hca => ?_
  refine S.bind (S.commit _ hws.b.poly) fun _ _ _ hcb => ?_
  refine S.bind (S.commit _ hws.c.poly) fun _ _ _ hcc => ?_
  refine S.bind (S.first' (S.openPoints' (.cons hca (.cons hcb (.cons hcc .nil))))) fun _ _ _ ho => ?_
  exact S.pure ⟨hws, ho⟩

/-! ### Round 2 -/

theorem Sim.arrayProdMul' (hA : ProdSim D P CS) (inv : Bool) {n : Nat} {r s t : ι → List A} {w v u : List F} (hr : Vec P n r w) (hs : Vec P n s v)
    (ht : Vec P n t u) :
    Rel CS (if inv then n * 7 + 2 else n * 6 + 2) (Vec P n) (fun i => (D i).arrayProdMul inv (r i) (s i) (t i))
      ((reference (F := F) (G := G)).arrayProdMul inv w v u) := by
  intro res hres
  obtain ⟨hr, rfl⟩ := hr
  refine S.cMono (hA inv hr hs.1 ht.1 hs.2.symm (by rw [hs.2, ht.2]) hres) fun a ha => ⟨ha, ?_⟩
  have hres' : arrayProd inv w v u = .ok res := hres
  unfold arrayProd at hres'
  simp only at hres'
  split_ifs at hres' <;> cases hres' <;> simp [prefixProducts_length, hs.2, ht.2]

theorem Sim.computeZ (hA : ProdSim D P CS) (key : Zkey F G H) (dom : Domains F) (hd : key.domainSize = dom.size) (β γ : F) {ws : ι → Wires A}
    {wv : Wires F} (hw : WiresRel P ws wv) {b : ι → List A} {bl : List F} (hb : Cols P b bl) :
    Rel MS (dom.size * 14 + 4) (WireRel P) (fun i => computeZ (D i) key dom β γ (ws i) (b i))
      (computeZ reference key dom β γ wv bl) := by
  unfold Plonk.computeZ
  refine S.bind (S.check _) fun _ _ _ _ => ?_
  refine S.bind (S.check _) fun _ _ _ _ => ?_
  refine S.bind (S.check _) fun _ _ _ _ => ?_
  have hn : ∀ k {s : ι → List A} {v : List F}, Cols P s v →
      Vec P dom.size (fun i => numerators (D i).addPub dom β γ k (s i)) (numerators (· + ·) dom β γ k v) :=
    fun k s v h => ⟨S.linear.numerators dom β γ k h, by simp [numerators]⟩
  have hdn : ∀ p {s : ι → List A} {v : List F}, Cols P s v →
      Vec P dom.size (fun i => denominators (D i).addPub dom β γ p (s i)) (denominators (· + ·) dom β γ p v) :=
    fun p s v h => ⟨S.linear.denominators dom β γ p h, by simp [denominators]⟩
  refine S.bind (S.join' (n := dom.size) [
    (key.domainSize * 6 + 2, (fun i => (D i).arrayProdMul false (numerators (D i).addPub dom β γ 1 (ws i).a.buffer)
      (numerators (D i).addPub dom β γ key.vk.k1 (ws i).b.buffer) (numerators (D i).addPub dom β γ key.vk.k2 (ws i).c.buffer)),
      (reference (F := F) (G := G)).arrayProdMul false (numerators (· + ·) dom β γ 1 wv.a.buffer)
      (numerators (· + ·) dom β γ key.vk.k1 wv.b.buffer) (numerators (· + ·) dom β γ key.vk.k2 wv.c.buffer)),
    (key.domainSize * 7 + 2, (fun i => (D i).arrayProdMul true (denominators (D i).addPub dom β γ key.s1 (ws i).a.buffer)
      (denominators (D i).addPub dom β γ key.s2 (ws i).b.buffer) (denominators (D i).addPub dom β γ key.s3 (ws i).c.buffer)),
      (reference (F := F) (G := G)).arrayProdMul true (denominators (· + ·) dom β γ key.s1 wv.a.buffer)
      (denominators (· + ·) dom β γ key.s2 wv.b.buffer) (denominators (· + ·) dom β γ key.s3 wv.c.buffer))]
    (by simp) (by simp) ?_) (fun r rv _ hr => ?_) (by simp [hd]; omega)
  · rw [hd]
    intro x hx
    simp only [List.mem_cons, List.not_mem_nil, or_false] at hx
    rcases hx with rfl | rfl
    · exact S.arrayProdMul' hA false (hn _ hw.a.buffer) (hn _ hw.b.buffer) (hn _ hw.c.buffer)
    · exact S.arrayProdMul' hA true (hdn _ hw.a.buffer) (hdn _ hw.b.buffer) (hdn _ hw.c.buffer)
  · refine S.bind (S.first' (S.mulVec' (vec_get hr 0 (by simp)) (vec_get hr 1 (by simp)))) (fun bz bv _ hz => ?_) (by simp [hd]; omega)
    have hi := S.linear.interpolate dom (rotateRight_cols hz.1) ((hb.drop 6).take 3)
    refine S.bind (S.loc (LRel.maxLen hi.poly _)) fun _ _ _ _ => ?_
    exact S.pure hi

omit S in
theorem computeZ_good {key : Zkey F G H} {dom : Domains F} {β γ : F} {ws : Wires F} {b : List F} (hb : b.length = 11)
    {z : Wire F} (h : computeZ (reference (G := G)) key dom β γ ws b = .ok z) :
    z.eval.length = dom.size * 4 ∧ z.poly ≠ [] := by
  have key : ∀ {α : Type} (x : Except Err α) (f : α → Except Err (Wire F)), (x >>= f) = .ok z → ∃ y, f y = .ok z := by
    intro α x f h
    cases x with
    | error e => cases h
    | ok y => exact ⟨y, h⟩
  unfold computeZ at h
  obtain ⟨_, h⟩ := key _ _ h
  obtain ⟨_, h⟩ := key _ _ h
  obtain ⟨_, h⟩ := key _ _ h
  obtain ⟨_, h⟩ := key _ _ h
  obtain ⟨_, h⟩ := key _ _ h
  obtain ⟨_, h⟩ := key _ _ h
  cases h
  refine ⟨interpolate_eval _ _ _, interpolate_poly _ _ _ fun e => ?_⟩
  have := congrArg List.length e
  simp [hb] at this

theorem Sim.round2 (hA : ProdSim D P CS) (key : Zkey F G H) (dom : Domains F) (hd : key.domainSize = dom.size) (β γ : F) {ws : ι → Wires A}
    {wv : Wires F} (hw : WiresRel P ws wv) {b : ι → List A} {bl : List F} (hb : Cols P b bl) (hl : bl.length = 11) :
    Rel MS (dom.size * 14 + 4)
      (fun r v => WireRel P (fun i => (r i).1) v.1 ∧ (v.1.eval.length = dom.size * 4 ∧ v.1.poly ≠ []) ∧
        (fun i => (r i).2) = fun _ => v.2)
      (fun i => round2 (D i) key dom β γ (ws i) (b i)) (round2 reference key dom β γ wv bl) := by
  unfold Plonk.round2
  refine S.bind (S.computeZ hA key dom hd β γ hw hb) fun z zv hzv hz => ?_
  refine S.bind (S.commit _ hz.poly) fun _ _ _ hc => ?_
  refine S.bind (S.first' (S.openPoint' hc)) fun _ _ _ ho => ?_
  exact S.pure ⟨hz, computeZ_good hl hzv, ho⟩

/-! ### Round 3 -/

theorem Sim.mul4vec {n : Nat} (hn : 0 < n) {s1 s2 s3 s4 t1 t2 t3 t4 : ι → List A} {a b x d ap bp cp dp : List F} (h1 : Vec P n s1 a)
    (h2 : Vec P n s2 b) (h3 : Vec P n s3 x) (h4 : Vec P n s4 d) (k1 : Vec P n t1 ap) (k2 : Vec P n t2 bp) (k3 : Vec P n t3 cp)
    (k4 : Vec P n t4 dp) :
    Rel MS (n * 24) (Mul4Rel P) (fun i => mul4vec (D i) (s1 i) (s2 i) (s3 i) (s4 i) (t1 i) (t2 i) (t3 i) (t4 i) n)
      (mul4vec (reference (F := F) (G := G)) a b x d ap bp cp dp n) := by
  unfold Plonk.mul4vec
  let R := reference (F := F) (G := G)
  refine S.bind (S.join' (n := n) [(n, (fun i => (D i).mulVec (s1 i) (s2 i)), R.mulVec a b),
    (n, (fun i => (D i).mulVec (s1 i) (t2 i)), R.mulVec a bp), (n, (fun i => (D i).mulVec (t1 i) (s2 i)), R.mulVec ap b),
    (n, (fun i => (D i).mulVec (t1 i) (t2 i)), R.mulVec ap bp), (n, (fun i => (D i).mulVec (s3 i) (s4 i)), R.mulVec x d),
    (n, (fun i => (D i).mulVec (s3 i) (t4 i)), R.mulVec x dp), (n, (fun i => (D i).mulVec (t3 i) (s4 i)), R.mulVec cp d),
    (n, (fun i => (D i).mulVec (t3 i) (t4 i)), R.mulVec cp dp)] (by simp) (by simpa using hn) ?_) (fun p pv _ hp => ?_)
    (by simp only [List.map_cons, List.map_nil, List.sum_cons, List.sum_nil]; omega)
  · intro y hy
    simp only [List.mem_cons, List.not_mem_nil, or_false] at hy
    rcases hy with rfl | rfl | rfl | rfl | rfl | rfl | rfl | rfl
    · exact S.mulVec' h1 h2
    · exact S.mulVec' h1 k2
    · exact S.mulVec' k1 h2
    · exact S.mulVec' k1 k2
    · exact S.mulVec' h3 h4
    · exact S.mulVec' h3 k4
    · exact S.mulVec' k3 h4
    · exact S.mulVec' k3 k4
  have v0 := vec_get hp 0 (by simp)
  have v1 := vec_get hp 1 (by simp)
  have v2 := vec_get hp 2 (by simp)
  have v3 := vec_get hp 3 (by simp)
  have v4 := vec_get hp 4 (by simp)
  have v5 := vec_get hp 5 (by simp)
  have v6 := vec_get hp 6 (by simp)
  have v7 := vec_get hp 7 (by simp)
  clear hp
  generalize pv.getD 0 [] = q0 at *
  generalize pv.getD 1 [] = q1 at *
  generalize pv.getD 2 [] = q2 at *
  generalize pv.getD 3 [] = q3 at *
  generalize pv.getD 4 [] = q4 at *
  generalize pv.getD 5 [] = q5 at *
  generalize pv.getD 6 [] = q6 at *
  generalize pv.getD 7 [] = q7 at *
  refine S.bind (S.join' (n := n) [(n, (fun i => (D i).mulVec ((p i).getD 0 []) ((p i).getD 4 [])), R.mulVec q0 q4),
    (n * 4, (fun i => do
      let a0 ← (D i).mulVec ((p i).getD 2 []) ((p i).getD 4 [])
      let a0 ← (D i).addMulVec a0 ((p i).getD 1 []) ((p i).getD 4 [])
      let a0 ← (D i).addMulVec a0 ((p i).getD 0 []) ((p i).getD 6 [])
      (D i).addMulVec a0 ((p i).getD 0 []) ((p i).getD 5 [])), do
      let a0 ← R.mulVec q2 q4
      let a0 ← R.addMulVec a0 q1 q4
      let a0 ← R.addMulVec a0 q0 q6
      R.addMulVec a0 q0 q5),
    (n * 6, (fun i => do
      let a1 ← (D i).mulVec ((p i).getD 3 []) ((p i).getD 4 [])
      let a1 ← (D i).addMulVec a1 ((p i).getD 2 []) ((p i).getD 6 [])
      let a1 ← (D i).addMulVec a1 ((p i).getD 2 []) ((p i).getD 5 [])
      let a1 ← (D i).addMulVec a1 ((p i).getD 1 []) ((p i).getD 6 [])
      let a1 ← (D i).addMulVec a1 ((p i).getD 1 []) ((p i).getD 5 [])
      (D i).addMulVec a1 ((p i).getD 0 []) ((p i).getD 7 [])), do
      let a1 ← R.mulVec q3 q4
      let a1 ← R.addMulVec a1 q2 q6
      let a1 ← R.addMulVec a1 q2 q5
      let a1 ← R.addMulVec a1 q1 q6
      let a1 ← R.addMulVec a1 q1 q5
      R.addMulVec a1 q0 q7),
    (n * 4, (fun i => do
      let a2 ← (D i).mulVec ((p i).getD 1 []) ((p i).getD 7 [])
      let a2 ← (D i).addMulVec a2 ((p i).getD 2 []) ((p i).getD 7 [])
      let a2 ← (D i).addMulVec a2 ((p i).getD 3 []) ((p i).getD 5 [])
      (D i).addMulVec a2 ((p i).getD 3 []) ((p i).getD 6 [])), do
      let a2 ← R.mulVec q1 q7
      let a2 ← R.addMulVec a2 q2 q7
      let a2 ← R.addMulVec a2 q3 q5
      R.addMulVec a2 q3 q6),
    (n, (fun i => (D i).mulVec ((p i).getD 3 []) ((p i).getD 7 [])), R.mulVec q3 q7)] (by simp) (by simpa using hn) ?_) (fun q qv _ hq => ?_)
    (by simp only [List.map_cons, List.map_nil, List.sum_cons, List.sum_nil]; omega)
  · intro y hy
    simp only [List.mem_cons, List.not_mem_nil, or_false] at hy
    rcases hy with rfl | rfl | rfl | rfl | rfl
    · exact S.mulVec' v0 v4
    · refine S.bindC (S.mulVec' v2 v4) fun _ _ _ w => ?_
      refine S.bindC (S.addMulVec' w v1 v4) fun _ _ _ w => ?_
      refine S.bindC (S.addMulVec' w v0 v6) fun _ _ _ w => ?_
      exact S.weakC (S.addMulVec' w v0 v5)
    · refine S.bindC (S.mulVec' v3 v4) fun _ _ _ w => ?_
      refine S.bindC (S.addMulVec' w v2 v6) fun _ _ _ w => ?_
      refine S.bindC (S.addMulVec' w v2 v5) fun _ _ _ w => ?_
      refine S.bindC (S.addMulVec' w v1 v6) fun _ _ _ w => ?_
      refine S.bindC (S.addMulVec' w v1 v5) fun _ _ _ w => ?_
      exact S.weakC (S.addMulVec' w v0 v7)
    · refine S.bindC (S.mulVec' v1 v7) fun _ _ _ w => ?_
      refine S.bindC (S.addMulVec' w v2 v7) fun _ _ _ w => ?_
      refine S.bindC (S.addMulVec' w v3 v5) fun _ _ _ w => ?_
      exact S.weakC (S.addMulVec' w v3 v6)
    · exact S.mulVec' v3 v7
  exact S.pure ⟨(vec_get hq 0 (by simp)).1, (vec_get hq 1 (by simp)).1, (vec_get hq 2 (by simp)).1,
    (vec_get hq 3 (by simp)).1, (vec_get hq 4 (by simp)).1⟩

theorem Sim.computeT (key : Zkey F G H) (dom : Domains F) (hd : key.domainSize = dom.size) (hpos : 0 < dom.size) (β γ α : F) {ws : ι → Wires A}
    {wv : Wires F} (hw : WiresRel P ws wv) (hg : wv.Good dom) {z : ι → Wire A} {zv : Wire F} (hz : WireRel P z zv)
    (hzl : zv.eval.length = dom.size * 4) {b : ι → List A} {bl : List F} (hb : Cols P b bl) :
    Rel MS (dom.size * 208) (TRel P) (fun i => computeT (D i) key dom β γ α (ws i) (z i) (b i))
      (computeT reference key dom β γ α wv zv bl) := by
  have hbk : ∀ k, P (fun i => (b i).getD k 0) (bl.getD k 0) := fun k => Groth16.Cols.getD hb S.linear.zero k
  have hid : ∀ k {s : ι → List A} {v : List F}, Cols P s v →
      Vec P (dom.size * 4) (fun i => idTerm (D i).addPub dom β γ k (s i)) (idTerm (· + ·) dom β γ k v) :=
    fun k s v h => ⟨S.linear.idTerm dom β γ k h, by simp [idTerm]⟩
  have hsg : ∀ k {s : ι → List A} {v : List F}, Cols P s v →
      Vec P (dom.size * 4) (fun i => sigmaTerm (D i).addPub dom β γ k (s i)) (sigmaTerm (· + ·) dom β γ k v) :=
    fun k s v h => ⟨S.linear.sigmaTerm dom β γ k h, by simp [sigmaTerm]⟩
  have hln : ∀ j k, Vec P (dom.size * 4) (fun i => blindLine dom ((b i).getD j 0) ((b i).getD k 0))
      (blindLine dom (bl.getD j 0) (bl.getD k 0)) :=
    fun j k => ⟨S.linear.blindLine dom (hbk j) (hbk k), by simp [blindLine]⟩
  have hsq : ∀ x, Vec P (dom.size * 4) (fun i => blindSquare dom x ((b i).getD 8 0) ((b i).getD 7 0) ((b i).getD 6 0))
      (blindSquare dom x (bl.getD 8 0) (bl.getD 7 0) (bl.getD 6 0)) :=
    fun x => ⟨S.linear.blindSquare dom x (hbk 8) (hbk 7) (hbk 6), by simp [blindSquare]⟩
  have hsh : Vec P (dom.size * 4) (fun i => shifted dom (z i).eval) (shifted dom zv.eval) :=
    ⟨S.linear.shifted dom hz.eval, by simp [shifted]⟩
  have ea : Vec P (dom.size * 4) (fun i => (ws i).a.eval) wv.a.eval := ⟨hw.a.eval, hg.a⟩
  have eb : Vec P (dom.size * 4) (fun i => (ws i).b.eval) wv.b.eval := ⟨hw.b.eval, hg.b⟩
  unfold Plonk.computeT
  rw [hd]
  let R := reference (F := F) (G := G)
  refine S.bind (S.check _) fun _ _ _ _ => ?_
  refine S.bind (S.join' (n := dom.size * 4) [
    (dom.size * 4, (fun i => (D i).mulVec (ws i).a.eval (ws i).b.eval), R.mulVec wv.a.eval wv.b.eval),
    (dom.size * 4, (fun i => (D i).mulVec (ws i).a.eval (blindLine dom ((b i).getD 3 0) ((b i).getD 2 0))),
      R.mulVec wv.a.eval (blindLine dom (bl.getD 3 0) (bl.getD 2 0))),
    (dom.size * 4, (fun i => (D i).mulVec (ws i).b.eval (blindLine dom ((b i).getD 1 0) ((b i).getD 0 0))),
      R.mulVec wv.b.eval (blindLine dom (bl.getD 1 0) (bl.getD 0 0))),
    (dom.size * 4, (fun i => (D i).mulVec (blindLine dom ((b i).getD 1 0) ((b i).getD 0 0))
      (blindLine dom ((b i).getD 3 0) ((b i).getD 2 0))),
      R.mulVec (blindLine dom (bl.getD 1 0) (bl.getD 0 0)) (blindLine dom (bl.getD 3 0) (bl.getD 2 0)))] (by simp) (by simpa using hpos) ?_)
    (fun p pv _ hp => ?_) (by simp only [List.map_cons, List.map_nil, List.sum_cons, List.sum_nil]; omega)
  · intro y hy
    simp only [List.mem_cons, List.not_mem_nil, or_false] at hy
    rcases hy with rfl | rfl | rfl | rfl
    · exact S.mulVec' ea eb
    · exact S.mulVec' ea (hln 3 2)
    · exact S.mulVec' eb (hln 1 0)
    · exact S.mulVec' (hln 1 0) (hln 3 2)
  have v0 := (vec_get hp 0 (by simp)).1
  have v1 := (vec_get hp 1 (by simp)).1
  have v2 := (vec_get hp 2 (by simp)).1
  have v3 := (vec_get hp 3 (by simp)).1
  refine S.bind (S.mul4vec (n := dom.size * 4) (by omega) (hid 1 hw.a.eval) (hid key.vk.k1 hw.b.eval) (hid key.vk.k2 hw.c.eval) ⟨hz.eval, hzl⟩ (hln 1 0)
    (hln 3 2) (hln 5 4) (hsq 1)) (fun e2 e2v _ h2 => ?_)
    (by simp only [List.map_cons, List.map_nil, List.sum_cons, List.sum_nil]; omega)
  refine S.bind (S.mul4vec (n := dom.size * 4) (by omega) (hsg key.s1 hw.a.eval) (hsg key.s2 hw.b.eval) (hsg key.s3 hw.c.eval) hsh (hln 1 0)
    (hln 3 2) (hln 5 4) (hsq dom.root)) (fun e3 e3v _ h3 => ?_)
    (by simp only [List.map_cons, List.map_nil, List.sum_cons, List.sum_nil]; omega)
  refine S.pure ?_
  exact S.linear.finishT dom (S.linear.tVec key dom α hz.eval (S.linear.gateTerm key dom hw v0) h2.r h3.r)
    (S.linear.tzVec key dom α (hsq 1).1 (S.linear.gateBlind key dom v1 v2 v3 (hln 1 0).1 (hln 3 2).1 (hln 5 4).1) h2 h3)
    (hbk 9) (hbk 10)

theorem Sim.round3 (key : Zkey F G H) (dom : Domains F) (hd : key.domainSize = dom.size) (hpos : 0 < dom.size) (β γ α : F) {ws : ι → Wires A}
    {wv : Wires F} (hw : WiresRel P ws wv) (hg : wv.Good dom) {z : ι → Wire A} {zv : Wire F} (hz : WireRel P z zv)
    (hzl : zv.eval.length = dom.size * 4) {b : ι → List A} {bl : List F} (hb : Cols P b bl) :
    Rel MS (dom.size * 208)
      (fun r v => FinalRel P (fun i => (r i).1) v.1 ∧ (v.1.a = wv.a.poly ∧ v.1.b = wv.b.poly ∧ v.1.c = wv.c.poly ∧
        v.1.z = zv.poly) ∧ (fun i => (r i).2) = fun _ => v.2)
      (fun i => round3 (D i) key dom β γ α (ws i) (z i) (b i)) (round3 reference key dom β γ α wv zv bl) := by
  unfold Plonk.round3
  refine S.bind (S.computeT key dom hd hpos β γ α hw hg hz hzl hb) fun t tv _ ht => ?_
  refine S.bind (S.commit _ ht.1) fun _ _ _ hca => ?_
  refine S.bind (S.commit _ ht.2.1) fun _ _ _ hcb => ?_
  refine S.bind (S.commit _ ht.2.2) fun _ _ _ hcc => ?_
  refine S.bind (S.first' (S.openPoints' (.cons hca (.cons hcb (.cons hcc .nil))))) fun _ _ _ ho => ?_
  exact S.pure ⟨⟨hw.a.poly, hw.b.poly, hw.c.poly, hz.poly, ht.1, ht.2.1, ht.2.2⟩, ⟨rfl, rfl, rfl, rfl⟩, ho⟩

/-! ### Rounds 4 and 5 -/

theorem Sim.round4 (key : Zkey F G H) (dom : Domains F) (ξ : F) {ps : ι → FinalPolys A} {pv : FinalPolys F}
    (h : FinalRel P ps pv) (ha : pv.a ≠ []) (hb : pv.b ≠ []) (hc : pv.c ≠ []) (hz : pv.z ≠ []) :
    Rel MS 0 (fun r v => r = fun _ => v) (fun i => round4 (D i) key dom ξ (ps i)) (round4 reference key dom ξ pv) := by
  unfold Plonk.round4
  refine S.bind (S.first' (S.openVec' (.cons (S.evalPoly ξ h.a ha) (.cons (S.evalPoly ξ h.b hb) (.cons (S.evalPoly ξ h.c hc)
    (.cons (S.evalPoly (ξ * dom.root) h.z hz) .nil)))))) fun o ov _ ho => ?_
  subst ho
  exact S.pure rfl

theorem Sim.round5 (key : Zkey F G H) (dom : Domains F) (pub : List F) (ch : Challenges F) (ev : Evals F)
    {ps : ι → FinalPolys A} {pv : FinalPolys F} (h : FinalRel P ps pv) :
    Rel MS 0 (fun r v => r = fun _ => v) (fun i => round5 (D i) key dom pub ch ev (ps i))
      (round5 reference key dom pub ch ev pv) := by
  unfold Plonk.round5
  refine S.bind (S.loc (LRel.pub _)) fun l lv _ hl => ?_
  subst hl
  have hr := S.linear.computeR key ch ev h (calculatePi pub lv.1) (lv.1.getD 0 0) lv.2
  refine S.bind (S.loc (S.linear.computeWxi key ch ev h hr)) fun _ _ _ h1 => ?_
  refine S.bind (S.loc (S.linear.computeWxiw dom ch ev h.z)) fun _ _ _ h2 => ?_
  refine S.bind (S.commit _ h1) fun _ _ _ hca => ?_
  refine S.bind (S.commit _ h2) fun _ _ _ hcb => ?_
  exact S.first' (S.openPoints' (.cons hca (.cons hcb .nil)))

theorem Sim.proveWith (hA : ProdSim D P CS) (hash : List (F ⊕ G) → F) (key : Zkey F G H) (dom : Domains F) (hd : key.domainSize = dom.size)
    (hpos : 0 < dom.size) (pub : List F) {wit adds b : ι → List A} {w a bl : List F}
    (hw : Cols P wit w) (ha : Cols P adds a) (hb : Cols P b bl) (hl : bl.length = 11) :
    Rel MS (dom.size * 222 + 4) (fun r v => r = fun _ => v)
      (fun i => proveWith (D i) hash key dom pub (wit i) (adds i) (b i))
      (proveWith reference hash key dom pub w a bl) := by
  unfold Plonk.proveWith
  refine S.bind (S.round1 key dom pub hw ha hb) fun r1 r1v hr1 h1 => ?_
  have hg := wirePolys_good _ _ _ _ _ _ _ hl (wirePolys_round1 hr1)
  have e1 : ∀ i, (r1 i).2 = r1v.2 := congrFun h1.2
  simp only [e1]
  refine S.bind (S.round2 hA key dom hd _ _ h1.1 hb hl) fun r2 r2v _ h2 => ?_
  have e2 : ∀ i, (r2 i).2 = r2v.2 := congrFun h2.2.2
  simp only [e2]
  refine S.bind (S.round3 key dom hd hpos _ _ _ h1.1 hg h2.1 h2.2.1.1 hb) fun r3 r3v _ h3 => ?_
  have e3 : ∀ i, (r3 i).2 = r3v.2 := congrFun h3.2.2
  simp only [e3]
  refine S.bind (S.round4 key dom _ h3.1 (by rw [h3.2.1.1]; exact hg.pa) (by rw [h3.2.1.2.1]; exact hg.pb)
    (by rw [h3.2.1.2.2.1]; exact hg.pc) (by rw [h3.2.1.2.2.2]; exact h2.2.1.2)) fun ev evv _ h4 => ?_
  subst h4
  refine S.bind (S.round5 key dom _ _ _ h3.1) fun ww wv _ h5 => ?_
  subst h5
  exact S.pure rfl

omit S in
theorem hpos_of_new {pr : FftParams F} {n : Nat} {dom : Domains F} (h : Domains.new pr n = .ok dom) : 0 < n := by
  unfold Domains.new at h
  split_ifs at h with h1
  omega

/-- What the prover does before it draws random values does not fail. -/
theorem Sim.prove_eq (hpure : ∀ {α β : Type} (a : α) (f : α → m β), (Pure.pure a >>= f) = f a) (hash : List (F ⊕ G) → F)
    (pr : FftParams F) (key : Zkey F G H) (x : F) (inputs : List F) {wit : ι → List A} {w av : List F} {dom : Domains F}
    (hw : Cols P wit w) (hdom : Domains.new pr key.domainSize = .ok dom)
    (hadd : Plonk.calculateAdditions (fun x => x) key (0 :: inputs) w key.additions [] = .ok av) :
    ∃ adds, Cols P adds av ∧ ∀ i, Plonk.prove (D i) hash pr key (x :: inputs) (wit i) =
      ((D i).first ((List.range 11).mapM fun (_ : Nat) => (D i).rand) >>= fun b =>
        Plonk.proveWith (D i) hash key dom (0 :: inputs) (wit i) (adds i) b) := by
  obtain ⟨adds, h1, h2⟩ := S.linear.calculateAdditions key (0 :: inputs) hw key.additions Cols.nil av hadd
  refine ⟨adds, h2, fun i => ?_⟩
  have h1' := h1 i
  simp only [] at h1'
  unfold Plonk.prove
  simp only [zeroFirst, local', hpure, hdom]
  rw [h1']
  simp only [hpure]

end Verif.Plonk
