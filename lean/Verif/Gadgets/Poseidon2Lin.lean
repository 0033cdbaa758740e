import Verif.Gadgets.Poseidon2
import Verif.Rep3.Cols

/-!
# Poseidon2: the linear layers respect every linear sharing
-/

namespace Verif.Poseidon2

variable {ι S F α β : Type}

/-- A sharing that is compatible with additions and with multiplications by public values. -/
structure LinRel [Add S] [HMul S F S] [Add F] [Mul F] (P : (ι → S) → F → Prop) : Prop where
  add : ∀ {x y v w}, P x v → P y w → P (fun i => x i + y i) (v + w)
  scale : ∀ {x v} (c : F), P x v → P (fun i => x i * c) (v * c)

/-! ### Chunks -/

theorem chunksExact_short {n : Nat} {l : List α} (h : l.length < n) : chunksExact n l = [] := by
  rw [chunksExact, dif_pos (.inr h)]

theorem chunksExact_step {n : Nat} (hn : 0 < n) {l : List α} (h : n ≤ l.length) :
    chunksExact n l = l.take n :: chunksExact n (l.drop n) := by
  rw [chunksExact, dif_neg (by omega)]

theorem mapChunks_short {f : List α → List α} {n : Nat} {l : List α} (h : l.length < n) :
    mapChunks f n l = l := by
  rw [mapChunks, dif_pos (.inr h)]

theorem mapChunks_step {f : List α → List α} {n : Nat} (hn : 0 < n) {l : List α} (h : n ≤ l.length) :
    mapChunks f n l = f (l.take n) ++ mapChunks f n (l.drop n) := by
  rw [mapChunks, dif_neg (by omega)]

theorem chunksExact_flatten {n : Nat} (hn : 0 < n) {ls : List (List α)} (h : ∀ l ∈ ls, l.length = n) :
    chunksExact n ls.flatten = ls := by
  induction ls with
  | nil => exact chunksExact_short (by simpa using hn)
  | cons l ls ih =>
    have hl := h l (by simp)
    rw [List.flatten_cons, chunksExact_step hn (by simp; omega), List.take_left' hl, List.drop_left' hl,
      ih fun l hl => h l (by simp [hl])]

theorem mapChunks_flatten {f : List α → List α} {n : Nat} (hn : 0 < n) {ls : List (List α)}
    (h : ∀ l ∈ ls, l.length = n) : mapChunks f n ls.flatten = (ls.map f).flatten := by
  induction ls with
  | nil => exact mapChunks_short (by simpa using hn)
  | cons l ls ih =>
    have hl := h l (by simp)
    rw [List.flatten_cons, mapChunks_step hn (by simp; omega), List.take_left' hl, List.drop_left' hl,
      ih fun l hl => h l (by simp [hl])]
    simp

/-- Every list whose length is a multiple of `n` is made of blocks of length `n`. -/
theorem exists_blocks {n k : Nat} {l : List α} (h : l.length = n * k) :
    ∃ ls : List (List α), l = ls.flatten ∧ ls.length = k ∧ ∀ x ∈ ls, x.length = n := by
  induction k generalizing l with
  | zero => exact ⟨[], by simpa using h, rfl, by simp⟩
  | succ k ih =>
    have : n * (k + 1) = n * k + n := by ring
    obtain ⟨ls, h1, h2, h3⟩ := ih (l := l.drop n) (by simp; omega)
    refine ⟨l.take n :: ls, ?_, by simp [h2], ?_⟩
    · rw [List.flatten_cons, ← h1, List.take_append_drop]
    · intro x hx
      rcases List.mem_cons.mp hx with rfl | hx
      · simp; omega
      · exact h3 x hx

/-! ### Columns of blocks -/

theorem Cols.two {P : (ι → α) → β → Prop} {x : ι → List α} {a b : β} (h : Cols P x [a, b]) :
    ∃ x0 x1, (x = fun i => [x0 i, x1 i]) ∧ P x0 a ∧ P x1 b := by
  obtain ⟨l, rfl, hl⟩ := h
  cases hl with | cons h0 hl => cases hl with | cons h1 hl => cases hl; exact ⟨_, _, rfl, h0, h1⟩

theorem Cols.three {P : (ι → α) → β → Prop} {x : ι → List α} {a b c : β} (h : Cols P x [a, b, c]) :
    ∃ x0 x1 x2, (x = fun i => [x0 i, x1 i, x2 i]) ∧ P x0 a ∧ P x1 b ∧ P x2 c := by
  obtain ⟨l, rfl, hl⟩ := h
  cases hl with | cons h0 hl => cases hl with | cons h1 hl => cases hl with | cons h2 hl =>
    cases hl; exact ⟨_, _, _, rfl, h0, h1, h2⟩

theorem Cols.four {P : (ι → α) → β → Prop} {x : ι → List α} {a b c d : β} (h : Cols P x [a, b, c, d]) :
    ∃ x0 x1 x2 x3, (x = fun i => [x0 i, x1 i, x2 i, x3 i]) ∧ P x0 a ∧ P x1 b ∧ P x2 c ∧ P x3 d := by
  obtain ⟨l, rfl, hl⟩ := h
  cases hl with | cons h0 hl => cases hl with | cons h1 hl => cases hl with | cons h2 hl =>
    cases hl with | cons h3 hl => cases hl; exact ⟨_, _, _, _, rfl, h0, h1, h2, h3⟩

theorem Cols.uncons {P : (ι → α) → β → Prop} {x : ι → List α} {v : β} {vs : List β}
    (h : Cols P x (v :: vs)) : ∃ x0 xs, (x = fun i => x0 i :: xs i) ∧ P x0 v ∧ Cols P xs vs := by
  obtain ⟨l, rfl, hl⟩ := h
  cases hl with | cons h0 hl => exact ⟨_, _, rfl, h0, _, rfl, hl⟩

theorem Cols.flatten {P : (ι → α) → β → Prop} {x : ι → List (List α)} {vs : List (List β)}
    (h : Cols (Cols P) x vs) : Cols P (fun i => (x i).flatten) vs.flatten := by
  obtain ⟨l, rfl, hl⟩ := h
  induction hl with
  | nil => exact Cols.nil
  | cons h _ ih => simpa using Cols.append h ih

theorem Cols.chunksExact {P : (ι → α) → β → Prop} {x : ι → List α} {vs : List β} (h : Cols P x vs)
    {n : Nat} (hn : 0 < n) : Cols (Cols P) (fun i => chunksExact n (x i)) (Poseidon2.chunksExact n vs) := by
  induction hm : vs.length using Nat.strong_induction_on generalizing x vs with
  | _ m ih =>
    by_cases hs : vs.length < n
    · have : (fun i => Poseidon2.chunksExact n (x i)) = fun _ => [] := by
        funext i; exact chunksExact_short (by rw [h.length]; exact hs)
      rw [this, chunksExact_short hs]
      exact Cols.nil
    · have : (fun i => Poseidon2.chunksExact n (x i)) =
          fun i => (x i).take n :: Poseidon2.chunksExact n ((x i).drop n) := by
        funext i; exact chunksExact_step hn (by rw [h.length]; omega)
      rw [this, chunksExact_step hn (by omega)]
      exact Cols.cons (h.take n) (ih _ (by simp; omega) (h.drop n) rfl)

theorem Cols.mapChunks {P : (ι → α) → β → Prop} {x : ι → List α} {vs : List β} (h : Cols P x vs)
    {n : Nat} (hn : 0 < n) {f : ι → List α → List α} {g : List β → List β}
    (hf : ∀ y ws, ws.length = n → Cols P y ws → Cols P (fun i => f i (y i)) (g ws)) :
    Cols P (fun i => mapChunks (f i) n (x i)) (Poseidon2.mapChunks g n vs) := by
  induction hm : vs.length using Nat.strong_induction_on generalizing x vs with
  | _ m ih =>
    by_cases hs : vs.length < n
    · have : (fun i => Poseidon2.mapChunks (f i) n (x i)) = x := by
        funext i; exact mapChunks_short (by rw [h.length]; exact hs)
      rw [this, mapChunks_short hs]
      exact h
    · have : (fun i => Poseidon2.mapChunks (f i) n (x i)) =
          fun i => f i ((x i).take n) ++ Poseidon2.mapChunks (f i) n ((x i).drop n) := by
        funext i; exact mapChunks_step hn (by rw [h.length]; omega)
      rw [this, mapChunks_step hn (by omega)]
      exact Cols.append (hf _ _ (by simp; omega) (h.take n)) (ih _ (by simp; omega) (h.drop n) rfl)

/-! ### Linear layers -/

section

variable [Add S] [HMul S F S] [Add F] [Mul F] {P : (ι → S) → F → Prop}

theorem matmulM4_cols (hP : LinRel P) {x : ι → List S} {vs : List F} (h : Cols P x vs) (hl : vs.length = 4) :
    Cols P (fun i => matmulM4 (x i)) (matmulM4 vs) := by
  match vs, hl with
  | [a, b, c, d], _ =>
    obtain ⟨x0, x1, x2, x3, rfl, h0, h1, h2, h3⟩ := Cols.four h
    have t0 := hP.add h0 h1
    have t1 := hP.add h2 h3
    have t2 := hP.add (hP.add h1 h1) t1
    have t3 := hP.add (hP.add h3 h3) t0
    have t4 := hP.add (hP.add (hP.add t1 t1) (hP.add t1 t1)) t3
    have t5 := hP.add (hP.add (hP.add t0 t0) (hP.add t0 t0)) t2
    exact Cols.cons (hP.add t3 t5) (Cols.cons t5 (Cols.cons (hP.add t2 t4) (Cols.cons t4 Cols.nil)))

theorem addCols (hP : LinRel P) {x y : ι → List S} {vs ws : List F} (h : Cols P x vs) (h' : Cols P y ws) :
    Cols P (fun i => List.zipWith (· + ·) (x i) (y i)) (List.zipWith (· + ·) vs ws) :=
  Cols.zipWith h h' fun _ _ _ _ => hP.add

theorem foldBlocks_cols (hP : LinRel P) {l : List (ι → List S)} {vs : List (List F)}
    (h : List.Forall₂ (Cols P) l vs) {x : ι → List S} {v : List F} (hx : Cols P x v) :
    Cols P (fun i => (l.map (· i)).foldl (List.zipWith (· + ·)) (x i))
      (vs.foldl (List.zipWith (· + ·)) v) := by
  induction h generalizing x v with
  | nil => exact hx
  | cons hy _ ih => exact ih (addCols hP hx hy)

theorem addBlocks_cols (hP : LinRel P) {x : ι → List (List S)} {vs : List (List F)}
    (h : Cols (Cols P) x vs) : Cols P (fun i => addBlocks (x i)) (addBlocks vs) := by
  obtain ⟨l, rfl, hl⟩ := h
  cases hl with
  | nil => exact Cols.nil
  | cons h0 hl => exact foldBlocks_cols hP hl h0

omit [HMul S F S] [Mul F] [Add F] [Add S] in
theorem chunksExact_length4 {l : List F} {c : List F} (hc : c ∈ chunksExact 4 l) : c.length = 4 := by
  induction hm : l.length using Nat.strong_induction_on generalizing l with
  | _ m ih =>
    by_cases hs : l.length < 4
    · rw [chunksExact_short hs] at hc; simp at hc
    · rw [chunksExact_step (by omega) (by omega)] at hc
      rcases List.mem_cons.mp hc with rfl | hc
      · simp; omega
      · exact ih _ (by simp; omega) hc rfl

omit [HMul S F S] [Mul F] [Add F] [Add S] in
theorem Cols.map' {γ δ : Type} {P : (ι → α) → β → Prop} {Q : (ι → γ) → δ → Prop} {x : ι → List α}
    {vs : List β} {f : ι → α → γ} {g : β → δ} (h : Cols P x vs)
    (hf : ∀ x v, v ∈ vs → P x v → Q (fun i => f i (x i)) (g v)) :
    Cols Q (fun i => (x i).map (f i)) (vs.map g) := by
  obtain ⟨l, rfl, hl⟩ := h
  induction hl with
  | nil => exact Cols.nil
  | cons h _ ih =>
    simp only [List.map_cons]
    exact Cols.cons (hf _ _ (by simp) h) (ih fun x v hv => hf x v (by simp [hv]))

/-- The general case of `matmul_external`. -/
theorem matmulExternal_big {l : List S} (h : 4 < l.length) : matmulExternal l =
    (((chunksExact 4 l).map matmulM4).map fun block =>
      List.zipWith (· + ·) block (addBlocks ((chunksExact 4 l).map matmulM4))).flatten := by
  match l, h with
  | _ :: _ :: _ :: _ :: _ :: _, _ => rfl

theorem matmulExternal_cols (hP : LinRel P) {x : ι → List S} {vs : List F} (h : Cols P x vs)
    (hl : 2 ≤ vs.length) : Cols P (fun i => matmulExternal (x i)) (matmulExternal vs) := by
  match vs, hl with
  | [a, b], _ =>
    obtain ⟨x0, x1, rfl, h0, h1⟩ := Cols.two h
    have s := hP.add h0 h1
    exact Cols.cons (hP.add h0 s) (Cols.cons (hP.add h1 s) Cols.nil)
  | [a, b, c], _ =>
    obtain ⟨x0, x1, x2, rfl, h0, h1, h2⟩ := Cols.three h
    have s := hP.add (hP.add h0 h1) h2
    exact Cols.cons (hP.add h0 s) (Cols.cons (hP.add h1 s) (Cols.cons (hP.add h2 s) Cols.nil))
  | [a, b, c, d], _ =>
    have := matmulM4_cols hP h rfl
    obtain ⟨x0, x1, x2, x3, rfl, -⟩ := Cols.four h
    exact this
  | a :: b :: c :: d :: e :: vs, _ =>
    have hb : 4 < (a :: b :: c :: d :: e :: vs).length := by simp
    have e : (fun i => matmulExternal (x i)) = fun i => (((chunksExact 4 (x i)).map matmulM4).map fun block =>
        List.zipWith (· + ·) block (addBlocks ((chunksExact 4 (x i)).map matmulM4))).flatten := by
      funext i
      exact matmulExternal_big (by rw [h.length]; exact hb)
    rw [e, matmulExternal_big hb]
    have hc := Cols.map' (f := fun _ => matmulM4) (g := matmulM4) (Q := Cols P) (Cols.chunksExact h (n := 4) (by omega))
      fun y v hv hy => matmulM4_cols hP hy (chunksExact_length4 hv)
    have hs := addBlocks_cols hP hc
    exact Cols.flatten (Cols.map (f := fun i block => List.zipWith (· + ·) block
      (addBlocks ((chunksExact 4 (x i)).map matmulM4))) hc fun y v hy => addCols hP hy hs)

theorem sumState_cols (hP : LinRel P) {x : ι → List S} {vs : List F} (h : Cols P x vs) {a : ι → S} {v : F}
    (ha : P a v) : P (fun i => sumState (x i) (a i)) (sumState vs v) := by
  obtain ⟨l, rfl, hl⟩ := h
  induction hl generalizing a v with
  | nil => exact ha
  | cons h _ ih => exact ih (hP.add ha h)

omit [Add F] [Mul F] in
theorem matmulInternal_big {diagM1 : List F} {a : S} {l : List S} (h : 3 ≤ l.length) :
    matmulInternal diagM1 (a :: l) =
    List.zipWith (fun s m => s * m + sumState l a) (a :: l) diagM1 := by
  match l, h with
  | _ :: _ :: _ :: _, _ => rfl

theorem matmulInternal_cols (hP : LinRel P) (diagM1 : List F) {x : ι → List S} {vs : List F} (h : Cols P x vs)
    (hl : 2 ≤ vs.length) :
    Cols P (fun i => matmulInternal diagM1 (x i)) (matmulInternal diagM1 vs) := by
  match vs, hl with
  | [a, b], _ =>
    obtain ⟨x0, x1, rfl, h0, h1⟩ := Cols.two h
    have s := hP.add h0 h1
    exact Cols.cons (hP.add h0 s) (Cols.cons (hP.add (hP.add h1 h1) s) Cols.nil)
  | [a, b, c], _ =>
    obtain ⟨x0, x1, x2, rfl, h0, h1, h2⟩ := Cols.three h
    have s := hP.add (hP.add h0 h1) h2
    exact Cols.cons (hP.add h0 s) (Cols.cons (hP.add h1 s) (Cols.cons (hP.add (hP.add h2 h2) s) Cols.nil))
  | a :: b :: c :: d :: vs, _ =>
    obtain ⟨x0, xs, rfl, h0, hs⟩ := Cols.uncons h
    have e : (fun i => matmulInternal diagM1 (x0 i :: xs i)) =
        fun i => List.zipWith (fun s m => s * m + sumState (xs i) (x0 i)) (x0 i :: xs i) diagM1 := by
      funext i
      exact matmulInternal_big (by rw [hs.length]; simp)
    rw [e, matmulInternal_big (by simp)]
    have hsum := sumState_cols hP hs h0
    have hd : Cols (fun (x : ι → F) v => x = fun _ => v) (fun _ => diagM1) diagM1 :=
      ⟨diagM1.map fun d _ => d, by funext i; rw [List.map_map]; exact (List.map_id _).symm, by
        rw [List.forall₂_map_left_iff]; exact List.forall₂_same.mpr fun _ _ => rfl⟩
    exact Cols.zipWith (f := fun i s m => s * m + sumState (xs i) (x0 i)) h hd fun y v z w hy hz => by
      subst hz
      exact hP.add (hP.scale _ hy) hsum

omit [Add F] [Mul F] [HMul S F S] [Add S] in
theorem onFirst_cols {f : ι → S → S} {g : F → F} {x : ι → List S} {vs : List F}
    (h : Cols P x vs) (hf : ∀ x v, P x v → P (fun i => f i (x i)) (g v)) :
    Cols P (fun i => onFirst (f i) (x i)) (onFirst g vs) := by
  cases vs with
  | nil => obtain ⟨l, rfl, hl⟩ := h; cases hl; exact Cols.nil
  | cons v vs =>
    obtain ⟨x0, xs, rfl, h0, hs⟩ := Cols.uncons h
    exact Cols.cons (hf _ _ h0) hs

/-! ### Lengths -/

omit [HMul S F S] [Add F] [Mul F] in
theorem length_matmulM4 (l : List S) : (matmulM4 l).length = l.length := by
  unfold matmulM4; split <;> rfl

omit [Add S] [HMul S F S] [Mul F] in
theorem length_foldBlocks {k : Nat} (cs : List (List F)) (h : ∀ c ∈ cs, c.length = k) (c : List F)
    (hc : c.length = k) : (cs.foldl (List.zipWith (· + ·)) c).length = k := by
  induction cs generalizing c with
  | nil => exact hc
  | cons d cs ih => exact ih (fun c hc => h c (by simp [hc])) _ (by simp [hc, h d (by simp)])

omit [Add S] [HMul S F S] [Add F] [Mul F] in
theorem ValidSize.two_le {t : Nat} (h : ValidSize t) : 2 ≤ t := by
  simp [ValidSize] at h; omega

omit [Add S] [HMul S F S] [Add F] [Mul F] in
theorem ValidSize.cases {t : Nat} (h : ValidSize t) : t = 2 ∨ t = 3 ∨ t = 4 ∨ ∃ k, 2 ≤ k ∧ t = 4 * k := by
  simp [ValidSize] at h
  rcases h with h | h | h | h | h | h | h | h
  · exact .inl h
  · exact .inr (.inl h)
  · exact .inr (.inr (.inl h))
  all_goals exact .inr (.inr (.inr ⟨t / 4, by omega, by omega⟩))

omit [Add S] [HMul S F S] [Mul F] in
theorem length_matmulExternal {l : List F} (h : ValidSize l.length) :
    (matmulExternal l).length = l.length := by
  rcases h.cases with h | h | h | ⟨k, hk, h⟩
  · match l, h with
    | [_, _], _ => rfl
  · match l, h with
    | [_, _, _], _ => rfl
  · match l, h with
    | [_, _, _, _], _ => rfl
  · obtain ⟨ls, rfl, hls, hl⟩ := exists_blocks h
    rw [matmulExternal_big (by omega), chunksExact_flatten (by omega) hl]
    have hm : ∀ c ∈ ls.map matmulM4, c.length = 4 := by
      intro c hc
      obtain ⟨d, hd, rfl⟩ := List.mem_map.mp hc
      rw [length_matmulM4, hl d hd]
    have ha : (addBlocks (ls.map matmulM4)).length = 4 := by
      match ls, hls with
      | c :: cs, _ =>
        exact length_foldBlocks _ (fun d hd => hm d (by simp only [List.map_cons, List.mem_cons]; exact .inr hd)) _
          (hm _ (by simp))
      | [], h => simp at h; omega
    rw [List.length_flatten, List.length_flatten, List.map_map, List.map_map]
    congr 1
    refine List.map_congr_left fun c hc => ?_
    have := hm _ (List.mem_map_of_mem hc)
    simp only [Function.comp, List.length_zipWith, ha]
    rw [this, hl c hc]
    rfl

omit [Add S] [HMul S F S] in
theorem length_matmulInternal {diagM1 l : List F} (hd : diagM1.length = l.length) :
    (matmulInternal diagM1 l).length = l.length := by
  match l, hd with
  | [], _ => rfl
  | [a], hd => unfold matmulInternal; simp [hd]
  | [_, _], _ => rfl
  | [_, _, _], _ => rfl
  | a :: b :: c :: d :: l, hd => rw [matmulInternal_big (by simp)]; simp [hd]

omit [Add S] [HMul S F S] [Add F] [Mul F] in
@[simp] theorem length_onFirst (f : α → α) (l : List α) : (onFirst f l).length = l.length := by
  cases l <;> rfl

end

end Verif.Poseidon2
