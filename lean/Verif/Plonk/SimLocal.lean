import Verif.Plonk.WireLemmas
import Verif.Groth16.DriverLemmas

/-!
# Lemmas: the local code of the PLONK prover on shares

The parties hold shares of the values that the reference holds, before and after each local computation.
-/

namespace Verif.Plonk

open Groth16 (FftParams fft ifft resize fft_cols ifft_cols resize_cols Cols.getD Cols.ofFn)

variable {ι F A G H : Type} [Field F] [DecidableEq F] [Zero A] [Add A] [Sub A] [Neg A] [SMul F A]

/-- Shares can be combined locally. -/
structure Linear (P : (ι → A) → F → Prop) (addPub : ι → A → F → A) (promote : ι → F → A) : Prop where
  zero : P (fun _ => 0) 0
  add : ∀ x y v w, P x v → P y w → P (fun i => x i + y i) (v + w)
  sub : ∀ x y v w, P x v → P y w → P (fun i => x i - y i) (v - w)
  neg : ∀ x v, P x v → P (fun i => -x i) (-v)
  smul : ∀ (k : F) x v, P x v → P (fun i => k • x i) (k • v)
  addPub : ∀ x v k, P x v → P (fun i => addPub i (x i) k) (v + k)
  promote : ∀ k, P (fun i => promote i k) k

/-- If the reference succeeds so do all parties, with related results. -/
def LRel {α β : Type} (Q : (ι → α) → β → Prop) (f : ι → Except Err α) (r : Except Err β) : Prop :=
  ∀ v, r = .ok v → ∃ a, (∀ i, f i = .ok (a i)) ∧ Q a v

theorem LRel.ok {α β : Type} {Q : (ι → α) → β → Prop} {a : ι → α} {v : β} (h : Q a v) :
    LRel Q (fun i => .ok (a i)) (.ok v) := by
  rintro _ ⟨⟩; exact ⟨a, fun _ => rfl, h⟩

theorem LRel.bind {α β α' β' : Type} {Q : (ι → α) → β → Prop} {Q' : (ι → α') → β' → Prop} {f : ι → Except Err α}
    {r : Except Err β} {f' : ι → α → Except Err α'} {r' : β → Except Err β'} (h : LRel Q f r)
    (h' : ∀ a v, Q a v → LRel Q' (fun i => f' i (a i)) (r' v)) : LRel Q' (fun i => f i >>= f' i) (r >>= r') := by
  intro v hv
  cases r with
  | error e => cases hv
  | ok u =>
    obtain ⟨a, ha, hq⟩ := h u rfl
    obtain ⟨b, hb, hq'⟩ := h' a u hq v hv
    exact ⟨b, fun i => by show f i >>= f' i = _; rw [ha i]; exact hb i, hq'⟩

theorem LRel.mono {α β : Type} {Q Q' : (ι → α) → β → Prop} {f : ι → Except Err α} {r : Except Err β} (h : LRel Q f r)
    (hq : ∀ a v, Q a v → Q' a v) : LRel Q' f r := fun v hv =>
  let ⟨a, ha, hQ⟩ := h v hv
  ⟨a, ha, hq _ _ hQ⟩

/-- The same computation on public data. -/
theorem LRel.pub {α : Type} (r : Except Err α) : LRel (fun (a : ι → α) v => a = fun _ => v) (fun _ => r) r := by
  rintro v rfl; exact ⟨fun _ => v, fun _ => rfl, rfl⟩

theorem LRel.index {α β : Type} {Q : (ι → α) → β → Prop} {s : ι → List α} {vs : List β} (h : Cols Q s vs) (k : Nat) :
    LRel Q (fun i => index (s i) k) (index vs k) := by
  intro v hv
  cases e : vs[k]? with
  | none => simp [Plonk.index, e] at hv
  | some u =>
    obtain rfl : u = v := by simpa [Plonk.index, e] using hv
    obtain ⟨x, hx, hQ⟩ := h.get e
    exact ⟨x, fun i => by simp [Plonk.index, hx i], hQ⟩

theorem LRel.mapM {α β γ : Type} {Q : (ι → α) → β → Prop} {f : ι → γ → Except Err α} {g : γ → Except Err β} (l : List γ)
    (h : ∀ x ∈ l, LRel Q (fun i => f i x) (g x)) : LRel (Cols Q) (fun i => l.mapM (f i)) (l.mapM g) := by
  induction l with
  | nil => exact LRel.ok Cols.nil
  | cons x l ih =>
    simp only [List.mapM_cons]
    refine LRel.bind (h x (by simp)) fun a v ha => ?_
    refine LRel.bind (ih fun y hy => h y (by simp [hy])) fun as vs has => ?_
    exact LRel.ok (Cols.cons ha has)

theorem LRel.atLeast {α β : Type} {Q : (ι → α) → β → Prop} {s : ι → List α} {vs : List β} (h : Cols Q s vs) (n : Nat) :
    LRel (fun _ _ => True) (fun i => atLeast n (s i)) (atLeast n vs) := by
  intro v hv
  by_cases e : vs.length < n
  · simp [Plonk.atLeast, e] at hv
  · exact ⟨fun _ => (), fun i => by simp [Plonk.atLeast, h.length i, e], trivial⟩

theorem LRel.maxLen {P : (ι → A) → F → Prop} {s : ι → List A} {vs : List F} (h : Cols P s vs) (n : Nat) :
    LRel (fun _ _ => True) (fun i => maxLen n (s i)) (maxLen n vs) := by
  intro v hv
  by_cases e : n < vs.length
  · simp [Plonk.maxLen, e] at hv
  · exact ⟨fun _ => (), fun i => by simp [Plonk.maxLen, h.length i, e], trivial⟩

section Lists

variable {α α' β β' : Type} {P : (ι → α) → α' → Prop} {Q : (ι → β) → β' → Prop}

theorem zipInto_cols {f : ι → α → β → α} {g : α' → β' → α'} {s : ι → List α} {vs : List α'} {t : ι → List β} {us : List β'}
    (hs : Cols P s vs) (ht : Cols Q t us) (h : ∀ x v y u, P x v → Q y u → P (fun i => f i (x i) (y i)) (g v u)) :
    Cols P (fun i => zipInto (f i) (s i) (t i)) (zipInto g vs us) := by
  obtain ⟨l, rfl, hl⟩ := hs
  obtain ⟨l', rfl, hl'⟩ := ht
  induction hl generalizing l' us with
  | nil => cases hl' <;> exact Cols.nil
  | cons hx hl ih =>
    cases hl' with
    | nil => exact ⟨_ :: _, rfl, .cons hx hl⟩
    | cons hy hl' => exact Cols.cons (h _ _ _ _ hx hy) (ih _ hl')

theorem zipInto_pub {f : ι → α → β → α} {g : α' → β → α'} {s : ι → List α} {vs : List α'} (us : List β)
    (hs : Cols P s vs) (h : ∀ x v y, P x v → P (fun i => f i (x i) y) (g v y)) :
    Cols P (fun i => zipInto (f i) (s i) us) (zipInto g vs us) :=
  zipInto_cols hs (Groth16.cols_const us) fun x v y u hx hy => by subst hy; exact h x v u hx

theorem mapHead_cols {f : ι → α → α} {g : α' → α'} {s : ι → List α} {vs : List α'} (hs : Cols P s vs)
    (h : ∀ x v, P x v → P (fun i => f i (x i)) (g v)) : Cols P (fun i => mapHead (f i) (s i)) (mapHead g vs) := by
  obtain ⟨l, rfl, hl⟩ := hs
  cases hl with
  | nil => exact Cols.nil
  | cons hx hl => exact Cols.cons (h _ _ hx) ⟨_, rfl, hl⟩

end Lists

section Steps

variable {P : (ι → A) → F → Prop} {addPub : ι → A → F → A} {promote : ι → F → A} (L : Linear P addPub promote)

include L

/-- The relation of wires. -/
structure WireRel (P : (ι → A) → F → Prop) (s : ι → Wire A) (v : Wire F) : Prop where
  buffer : Cols P (fun i => (s i).buffer) v.buffer
  poly : Cols P (fun i => (s i).poly) v.poly
  eval : Cols P (fun i => (s i).eval) v.eval

structure WiresRel (P : (ι → A) → F → Prop) (s : ι → Wires A) (v : Wires F) : Prop where
  a : WireRel P (fun i => (s i).a) v.a
  b : WireRel P (fun i => (s i).b) v.b
  c : WireRel P (fun i => (s i).c) v.c

theorem Linear.fftOn {s : ι → List A} {v : List F} (h : Cols P s v) (w : F) (n : Nat) :
    Cols P (fun i => fftOn w n (s i)) (fftOn w n v) := fft_cols (resize_cols h L.zero n) L.zero L.add L.smul w

theorem Linear.ifftOn {s : ι → List A} {v : List F} (h : Cols P s v) (w : F) (n : Nat) :
    Cols P (fun i => ifftOn w n (s i)) (ifftOn w n v) := ifft_cols (resize_cols h L.zero n) L.zero L.add L.smul w

theorem Linear.getWitness (key : Zkey F G H) (pub : List F) {wit adds : ι → List A} {w a : List F} (hw : Cols P wit w)
    (ha : Cols P adds a) (k : Nat) :
    LRel P (fun i => getWitness (promote i) key pub (wit i) (adds i) k) (getWitness (fun x => x) key pub w a k) := by
  unfold Plonk.getWitness
  split_ifs
  · intro v hv
    cases e : Plonk.index pub k with
    | error _ => simp [e, Except.map] at hv
    | ok u =>
      obtain rfl : u = v := by simpa [e, Except.map] using hv
      exact ⟨fun i => promote i u, fun i => rfl, L.promote u⟩
  · exact LRel.index hw _
  · exact LRel.index ha _
  · rintro v ⟨⟩

theorem Linear.calculateAdditions (key : Zkey F G H) (pub : List F) {wit : ι → List A} {w : List F} (hw : Cols P wit w)
    (xs : List (Addition F)) {adds : ι → List A} {a : List F} (ha : Cols P adds a) :
    LRel (Cols P) (fun i => calculateAdditions (promote i) key pub (wit i) xs (adds i))
      (calculateAdditions (fun x => x) key pub w xs a) := by
  induction xs generalizing adds a with
  | nil => exact LRel.ok ha
  | cons x xs ih =>
    simp only [Plonk.calculateAdditions]
    refine LRel.bind (L.getWitness key pub hw ha x.id1) fun _ _ h1 => ?_
    refine LRel.bind (L.getWitness key pub hw ha x.id2) fun _ _ h2 => ?_
    exact ih (ha.append (Cols.cons (L.add _ _ _ _ (L.smul _ _ _ h1) (L.smul _ _ _ h2)) Cols.nil))

theorem Linear.interpolate (dom : Domains F) {s t : ι → List A} {v u : List F} (hs : Cols P s v) (ht : Cols P t u) :
    WireRel P (fun i => interpolate dom (s i) (t i)) (interpolate dom v u) where
  buffer := hs
  poly := (zipInto_cols (L.ifftOn hs _ _) ht.reverse fun _ _ _ _ h h' => L.sub _ _ _ _ h h').append ht.reverse
  eval := L.fftOn (L.ifftOn hs _ _) _ _

theorem Linear.wirePoly (key : Zkey F G H) (dom : Domains F) (pub : List F) {wit adds blind : ι → List A} {w a bl : List F}
    (hw : Cols P wit w) (ha : Cols P adds a) (hb : Cols P blind bl) (map : List Nat) :
    LRel (WireRel P) (fun i => wirePoly (promote i) key dom pub (wit i) (adds i) (blind i) map)
      (wirePoly (fun x => x) key dom pub w a bl map) := by
  unfold Plonk.wirePoly
  refine LRel.bind (LRel.mapM _ fun k _ => L.getWitness key pub hw ha k) fun _ _ h => ?_
  exact LRel.ok (L.interpolate dom (resize_cols h L.zero _) hb)

theorem Linear.wirePolys (key : Zkey F G H) (dom : Domains F) (pub : List F) {wit adds b : ι → List A} {w a bl : List F}
    (hw : Cols P wit w) (ha : Cols P adds a) (hb : Cols P b bl) :
    LRel (WiresRel P) (fun i => wirePolys (promote i) key dom pub (wit i) (adds i) (b i))
      (wirePolys (fun x => x) key dom pub w a bl) := by
  unfold Plonk.wirePolys
  refine LRel.bind (L.wirePoly key dom pub hw ha (hb.take 2) _) fun _ _ h1 => ?_
  refine LRel.bind (L.wirePoly key dom pub hw ha ((hb.drop 2).take 2) _) fun _ _ h2 => ?_
  refine LRel.bind (L.wirePoly key dom pub hw ha ((hb.drop 4).take 2) _) fun _ _ h3 => ?_
  refine LRel.bind (LRel.maxLen h1.poly _) fun _ _ _ => ?_
  refine LRel.bind (LRel.maxLen h2.poly _) fun _ _ _ => ?_
  refine LRel.bind (LRel.maxLen h3.poly _) fun _ _ _ => ?_
  exact LRel.ok ⟨h1, h2, h3⟩

theorem Linear.numerators (dom : Domains F) (β γ k : F) {s : ι → List A} {v : List F} (h : Cols P s v) :
    Cols P (fun i => numerators (addPub i) dom β γ k (s i)) (numerators (· + ·) dom β γ k v) :=
  Cols.ofFn _ fun _ _ => L.addPub _ _ _ (L.addPub _ _ _ (Cols.getD h L.zero _))

theorem Linear.denominators (dom : Domains F) (β γ : F) (p : Poly F) {s : ι → List A} {v : List F} (h : Cols P s v) :
    Cols P (fun i => denominators (addPub i) dom β γ p (s i)) (denominators (· + ·) dom β γ p v) :=
  Cols.ofFn _ fun _ _ => L.addPub _ _ _ (L.addPub _ _ _ (Cols.getD h L.zero _))

omit [Zero A] [Add A] [Sub A] [Neg A] [SMul F A] [Field F] [DecidableEq F] L in
theorem rotateRight_cols {P : (ι → A) → F → Prop} {s : ι → List A} {v : List F} (h : Cols P s v) :
    Cols P (fun i => rotateRight (s i)) (rotateRight v) := by
  have e : (fun i => rotateRight (s i)) = fun i => (s i).drop (v.length - 1) ++ (s i).take (v.length - 1) := by
    funext i; rw [rotateRight, h.length i]
  rw [e]
  exact (h.drop _).append (h.take _)

/-! ### Round 3 -/

theorem Linear.blindLine (dom : Domains F) {x y : ι → A} {v w : F} (hx : P x v) (hy : P y w) :
    Cols P (fun i => blindLine dom (x i) (y i)) (blindLine dom v w) :=
  Cols.ofFn _ fun _ _ => L.add _ _ _ _ hx (L.smul _ _ _ hy)

theorem Linear.blindSquare (dom : Domains F) (s : F) {x y z : ι → A} {v w u : F} (hx : P x v) (hy : P y w) (hz : P z u) :
    Cols P (fun i => blindSquare dom s (x i) (y i) (z i)) (blindSquare dom s v w u) :=
  Cols.ofFn _ fun _ _ => L.add _ _ _ _ hx (L.add _ _ _ _ (L.smul _ _ _ hz) (L.smul _ _ _ hy))

theorem Linear.publicTerm (lagrange : List (Poly F)) {s : ι → List A} {v : List F} (h : Cols P s v) (k : Nat) :
    P (fun i => publicTerm lagrange (s i) k) (publicTerm lagrange v k) := by
  unfold Plonk.publicTerm
  generalize List.range lagrange.length = l
  have key : ∀ (x : ι → A) (u : F), P x u → P
      (fun i => l.foldl (fun acc j => acc - ((lagrange.map Poly.evals).getD j []).getD k 0 • (s i).getD j 0) (x i))
      (l.foldl (fun acc j => acc - ((lagrange.map Poly.evals).getD j []).getD k 0 • v.getD j 0) u) := by
    induction l with
    | nil => exact fun _ _ h => h
    | cons j l ih => exact fun x u hx => ih _ _ (L.sub _ _ _ _ hx (L.smul _ _ _ (Cols.getD h L.zero _)))
  exact key _ _ L.zero

theorem Linear.gateTerm (key : Zkey F G H) (dom : Domains F) {ws : ι → Wires A} {wv : Wires F} (hw : WiresRel P ws wv)
    {s : ι → List A} {v : List F} (h : Cols P s v) :
    Cols P (fun i => gateTerm (addPub i) key dom (ws i) (s i)) (gateTerm (· + ·) key dom wv v) :=
  Cols.ofFn _ fun _ _ => L.addPub _ _ _ (L.add _ _ _ _ (L.add _ _ _ _ (L.add _ _ _ _ (L.add _ _ _ _
    (L.smul _ _ _ (Cols.getD h L.zero _)) (L.smul _ _ _ (Cols.getD hw.a.eval L.zero _)))
    (L.smul _ _ _ (Cols.getD hw.b.eval L.zero _))) (L.smul _ _ _ (Cols.getD hw.c.eval L.zero _)))
    (L.publicTerm _ hw.a.buffer _))

theorem Linear.blindProduct (dom : Domains F) {s t r : ι → List A} {v w u : List F} (hs : Cols P s v) (ht : Cols P t w)
    (hr : Cols P r u) (k : Nat) :
    P (fun i => blindProduct dom (s i) (t i) (r i) k) (blindProduct dom v w u k) := by
  unfold Plonk.blindProduct
  have h := L.add _ _ _ _ (Cols.getD hs L.zero k) (Cols.getD ht L.zero k)
  split_ifs
  · exact L.add _ _ _ _ h (L.smul _ _ _ (Cols.getD hr L.zero k))
  · exact h

theorem Linear.gateBlind (key : Zkey F G H) (dom : Domains F) {s t r x y z : ι → List A} {v w u v' w' u' : List F}
    (hs : Cols P s v) (ht : Cols P t w) (hr : Cols P r u) (hx : Cols P x v') (hy : Cols P y w') (hz : Cols P z u') :
    Cols P (fun i => gateBlind key dom (s i) (t i) (r i) (x i) (y i) (z i)) (gateBlind key dom v w u v' w' u') :=
  Cols.ofFn _ fun _ _ => L.add _ _ _ _ (L.add _ _ _ _ (L.add _ _ _ _ (L.smul _ _ _ (L.blindProduct dom hs ht hr _))
    (L.smul _ _ _ (Cols.getD hx L.zero _))) (L.smul _ _ _ (Cols.getD hy L.zero _))) (L.smul _ _ _ (Cols.getD hz L.zero _))

theorem Linear.idTerm (dom : Domains F) (β γ k : F) {s : ι → List A} {v : List F} (h : Cols P s v) :
    Cols P (fun i => idTerm (addPub i) dom β γ k (s i)) (idTerm (· + ·) dom β γ k v) :=
  Cols.ofFn _ fun _ _ => L.addPub _ _ _ (Cols.getD h L.zero _)

theorem Linear.sigmaTerm (dom : Domains F) (β γ : F) (p : Poly F) {s : ι → List A} {v : List F} (h : Cols P s v) :
    Cols P (fun i => sigmaTerm (addPub i) dom β γ p (s i)) (sigmaTerm (· + ·) dom β γ p v) :=
  Cols.ofFn _ fun _ _ => L.addPub _ _ _ (Cols.getD h L.zero _)

theorem Linear.shifted (dom : Domains F) {s : ι → List A} {v : List F} (h : Cols P s v) :
    Cols P (fun i => shifted dom (s i)) (shifted dom v) :=
  Cols.ofFn _ fun _ _ => Cols.getD h L.zero _

structure Mul4Rel (P : (ι → A) → F → Prop) (s : ι → Mul4 A) (v : Mul4 F) : Prop where
  r : Cols P (fun i => (s i).r) v.r
  a0 : Cols P (fun i => (s i).a0) v.a0
  a1 : Cols P (fun i => (s i).a1) v.a1
  a2 : Cols P (fun i => (s i).a2) v.a2
  a3 : Cols P (fun i => (s i).a3) v.a3

theorem Linear.mul4Post (dom : Domains F) {s : ι → Mul4 A} {v : Mul4 F} (h : Mul4Rel P s v) (k : Nat) :
    P (fun i => mul4Post dom (s i).a0 (s i).a1 (s i).a2 (s i).a3 k) (mul4Post dom v.a0 v.a1 v.a2 v.a3 k) := by
  unfold Plonk.mul4Post
  split_ifs
  · exact L.add _ _ _ _ (L.add _ _ _ _ (L.add _ _ _ _ (L.smul _ _ _ (Cols.getD h.a1 L.zero k)) (Cols.getD h.a0 L.zero k))
      (L.smul _ _ _ (Cols.getD h.a2 L.zero k))) (L.smul _ _ _ (Cols.getD h.a3 L.zero k))
  · exact Cols.getD h.a0 L.zero k

theorem Linear.tVec (key : Zkey F G H) (dom : Domains F) (α : F) {z s t r : ι → List A} {zv v w u : List F}
    (hz : Cols P z zv) (hs : Cols P s v) (ht : Cols P t w) (hr : Cols P r u) :
    Cols P (fun i => tVec (addPub i) key dom α (z i) (s i) (t i) (r i)) (tVec (· + ·) key dom α zv v w u) :=
  Cols.ofFn _ fun _ _ => L.add _ _ _ _ (L.sub _ _ _ _ (L.add _ _ _ _ (Cols.getD hs L.zero _)
    (L.smul _ _ _ (Cols.getD ht L.zero _))) (L.smul _ _ _ (Cols.getD hr L.zero _)))
    (L.smul _ _ _ (L.smul _ _ _ (L.addPub _ _ _ (Cols.getD hz L.zero _))))

theorem Linear.tzVec (key : Zkey F G H) (dom : Domains F) (α : F) {z s : ι → List A} {zv v : List F} {x y : ι → Mul4 A}
    {xv yv : Mul4 F} (hz : Cols P z zv) (hs : Cols P s v) (hx : Mul4Rel P x xv) (hy : Mul4Rel P y yv) :
    Cols P (fun i => tzVec key dom α (z i) (s i) (x i) (y i)) (tzVec key dom α zv v xv yv) :=
  Cols.ofFn _ fun _ _ => L.add _ _ _ _ (L.sub _ _ _ _ (L.add _ _ _ _ (Cols.getD hs L.zero _)
    (L.smul _ _ _ (L.mul4Post dom hx _))) (L.smul _ _ _ (L.mul4Post dom hy _)))
    (L.smul _ _ _ (L.smul _ _ _ (Cols.getD hz L.zero _)))

theorem Linear.divLoop (n : Nat) {s : ι → List A} {v : List F} (h : Cols P s v) (k : Nat) {t : ι → List A} {w : List F}
    (ht : Cols P t w) : Cols P (fun i => divLoop n (s i) k (t i)) (divLoop n v k w) := by
  induction k generalizing t w with
  | zero => exact ht
  | succ k ih =>
    have e : (fun i => Plonk.divLoop n (s i) (k + 1) (t i)) = fun i => Plonk.divLoop n (s i) k
        (t i ++ [(t i).getD (w.length - n) 0 - (s i).getD w.length 0]) := by
      funext i; rw [Plonk.divLoop, ht.length i]
    rw [e]
    exact ih (ht.append (Cols.cons (L.sub _ _ _ _ (Cols.getD ht L.zero _) (Cols.getD h L.zero _)) Cols.nil))

theorem Linear.divZh (n : Nat) {s : ι → List A} {v : List F} (h : Cols P s v) :
    Cols P (fun i => divZh n (s i)) (divZh n v) := by
  have e : (fun i => Plonk.divZh n (s i)) = fun i => Plonk.divLoop n (s i) (v.length - n) (((s i).take n).map fun x => -x) := by
    funext i; rw [Plonk.divZh, h.length i]
  rw [e]
  exact L.divLoop n h _ ((h.take n).map (f := fun _ x => -x) fun _ _ hx => L.neg _ _ hx)

/-- The relation of the three parts of the quotient. -/
def TRel (P : (ι → A) → F → Prop) (s : ι → List A × List A × List A) (v : List F × List F × List F) : Prop :=
  Cols P (fun i => (s i).1) v.1 ∧ Cols P (fun i => (s i).2.1) v.2.1 ∧ Cols P (fun i => (s i).2.2) v.2.2

theorem Linear.finishT (dom : Domains F) {s t : ι → List A} {v w : List F} (hs : Cols P s v) (ht : Cols P t w) {x y : ι → A}
    {a b : F} (hx : P x a) (hy : P y b) :
    TRel P (fun i => finishT dom (s i) (t i) (x i) (y i)) (finishT dom v w a b) := by
  have h := Cols.zipWith (f := fun _ => (· + ·)) (g := (· + ·)) (W := P) (L.divZh dom.size (L.ifftOn hs dom.root4 (dom.size * 4)))
    (L.ifftOn ht dom.root4 (dom.size * 4)) fun _ _ _ _ => L.add _ _ _ _
  refine ⟨(h.take _).append (Cols.cons hx Cols.nil), ?_, ?_⟩
  · exact (mapHead_cols (f := fun i e => e - x i) (g := (· - a)) ((h.drop _).take _) fun _ _ he => L.sub _ _ _ _ he hx).append
      (Cols.cons hy Cols.nil)
  · exact mapHead_cols (f := fun i e => e - y i) (g := (· - b)) ((h.drop _).take _) fun _ _ he => L.sub _ _ _ _ he hy

/-! ### Round 5 -/

structure FinalRel (P : (ι → A) → F → Prop) (s : ι → FinalPolys A) (v : FinalPolys F) : Prop where
  a : Cols P (fun i => (s i).a) v.a
  b : Cols P (fun i => (s i).b) v.b
  c : Cols P (fun i => (s i).c) v.c
  z : Cols P (fun i => (s i).z) v.z
  t1 : Cols P (fun i => (s i).t1) v.t1
  t2 : Cols P (fun i => (s i).t2) v.t2
  t3 : Cols P (fun i => (s i).t3) v.t3

theorem Linear.zeros (n : Nat) : Cols P (fun _ => List.replicate n 0) (List.replicate n 0) := Cols.replicate n L.zero

theorem Linear.quotientPart (n : Nat) {s : ι → FinalPolys A} {v : FinalPolys F} (h : FinalRel P s v) (x : F) :
    Cols P (fun i => quotientPart n (s i) x) (quotientPart n v x) := by
  unfold Plonk.quotientPart
  refine Cols.map (f := fun _ y => (x - 1) • y) (g := fun y => (x - 1) • y) ?_ fun _ _ => L.smul _ _ _
  refine zipInto_cols (f := fun _ x y => x + y) ?_ h.t1 fun _ _ _ _ => L.add _ _ _ _
  refine zipInto_cols (f := fun _ a y => a + x • y) ?_ h.t2 fun _ _ _ _ ha hy => L.add _ _ _ _ ha (L.smul _ _ _ hy)
  exact zipInto_cols (f := fun _ _ y => x ^ 2 • y) (L.zeros n) h.t3 fun _ _ _ _ _ hy => L.smul _ _ _ hy

theorem Linear.computeR (key : Zkey F G H) (ch : Challenges F) (ev : Evals F) {s : ι → FinalPolys A} {v : FinalPolys F}
    (h : FinalRel P s v) (pi l0 xin : F) :
    Cols P (fun i => computeR (addPub i) key ch ev (s i) pi l0 xin) (computeR (· + ·) key ch ev v pi l0 xin) := by
  unfold Plonk.computeR
  refine mapHead_cols (f := fun i x => addPub i x _) ?_ fun _ _ hx => L.addPub _ _ _ hx
  refine zipInto_cols (f := fun _ x y => x - y) ?_ (L.quotientPart _ h xin) fun _ _ _ _ => L.sub _ _ _ _
  refine zipInto_pub (f := fun i x y => addPub i x y) _ ?_ fun _ _ _ hx => L.addPub _ _ _ hx
  exact zipInto_cols (f := fun _ _ y => _ • y) (L.zeros _) h.z fun _ _ _ _ _ hy => L.smul _ _ _ hy

theorem Linear.zerofierLoop (c : F) {s : ι → List A} {v : List F} (h : Cols P s v) {x : ι → A} {a : F} (hx : P x a) :
    Cols P (fun i => zerofierLoop c (x i) (s i)) (zerofierLoop c a v) := by
  obtain ⟨l, rfl, hl⟩ := h
  induction hl generalizing x a with
  | nil => exact Cols.nil
  | cons hy hl ih =>
    have h := L.smul c _ _ (L.sub _ _ _ _ hx hy)
    exact Cols.cons h (ih h)

theorem Linear.divByZerofier {s : ι → List A} {v : List F} (h : Cols P s v) (β : F) :
    LRel (Cols P) (fun i => divByZerofier (s i) β) (divByZerofier v β) := by
  intro r hr
  by_cases hβ : β = 0
  · simp [Plonk.divByZerofier, hβ] at hr
  · obtain ⟨l, rfl, hl⟩ := h
    cases hl with
    | nil => simp [Plonk.divByZerofier, hβ] at hr
    | @cons x a l vs hx hl =>
      simp only [Plonk.divByZerofier, hβ, if_false, Except.ok.injEq] at hr
      subst hr
      have h1 := L.smul (-β⁻¹) _ _ hx
      have h2 := (Cols.cons h1 (L.zerofierLoop β⁻¹ ⟨l, rfl, hl⟩ h1)).take vs.length
      refine ⟨_, fun i => ?_, h2⟩
      simp [Plonk.divByZerofier, hβ, hl.length_eq]

theorem Linear.computeWxi (key : Zkey F G H) (ch : Challenges F) (ev : Evals F) {s : ι → FinalPolys A} {v : FinalPolys F}
    (h : FinalRel P s v) {r : ι → List A} {u : List F} (hr : Cols P r u) :
    LRel (Cols P) (fun i => computeWxi (addPub i) key ch ev (s i) (r i)) (computeWxi (· + ·) key ch ev v u) := by
  unfold Plonk.computeWxi
  refine L.divByZerofier ?_ _
  refine mapHead_cols (f := fun i x => addPub i (addPub i (addPub i (addPub i (addPub i x _) _) _) _) _) ?_ fun _ _ hx =>
    L.addPub _ _ _ (L.addPub _ _ _ (L.addPub _ _ _ (L.addPub _ _ _ (L.addPub _ _ _ hx))))
  refine zipInto_pub (f := fun i x y => addPub i x (_ * y)) _ ?_ fun _ _ _ hx => L.addPub _ _ _ hx
  refine zipInto_pub (f := fun i x y => addPub i x (_ * y)) _ ?_ fun _ _ _ hx => L.addPub _ _ _ hx
  refine zipInto_cols (f := fun _ x y => _ • y + x) ?_ h.c fun _ _ _ _ hx hy => L.add _ _ _ _ (L.smul _ _ _ hy) hx
  refine zipInto_cols (f := fun _ x y => _ • y + x) ?_ h.b fun _ _ _ _ hx hy => L.add _ _ _ _ (L.smul _ _ _ hy) hx
  refine zipInto_cols (f := fun _ x y => _ • y + x) ?_ h.a fun _ _ _ _ hx hy => L.add _ _ _ _ (L.smul _ _ _ hy) hx
  exact zipInto_cols (f := fun _ _ y => y) (L.zeros _) hr fun _ _ _ _ _ hy => hy

theorem Linear.computeWxiw (dom : Domains F) (ch : Challenges F) (ev : Evals F) {s : ι → List A} {v : List F}
    (h : Cols P s v) :
    LRel (Cols P) (fun i => computeWxiw (addPub i) dom ch ev (s i)) (computeWxiw (· + ·) dom ch ev v) := by
  unfold Plonk.computeWxiw
  exact L.divByZerofier (mapHead_cols (f := fun i x => addPub i x _) h fun _ _ hx => L.addPub _ _ _ hx) _

end Steps

end Verif.Plonk
