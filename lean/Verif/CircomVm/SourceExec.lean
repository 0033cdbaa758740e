import Verif.CircomVm.SourceSem

/-!
# Statements
-/

namespace Verif.CircomVm

variable {V P A : Type}

/-- A run of a sub-component: declaration, offset, signals before and after. -/
abbrev SubRun (V : Type) := TemplateDecl → Nat → List V → List V → Prop

/-- Creation of components at the offsets. -/
def CreateRel (Sub : SubRun V) (decl : TemplateDecl) : List Nat → List V × List Comp → List V × List Comp → Prop
  | [], a, b => a = b
  | off :: r, a, b =>
    if decl.inputSignals = 0 then
      ∃ sig, Sub decl off a.1 sig ∧ CreateRel Sub decl r (sig, a.2 ++ [⟨decl, off, 0, true⟩]) b
    else CreateRel Sub decl r (a.1, a.2 ++ [⟨decl, off, 0, false⟩]) b

/-- A component has received `n` inputs. -/
def ProvideRel (Sub : SubRun V) (sub : Nat) (c : Comp) (n : Nat) (a b : List V × List Comp) : Prop :=
  if c.provided + n = c.decl.inputSignals then
    c.ran = false ∧ ∃ sig, Sub c.decl c.offset a.1 sig ∧
      b = (sig, a.2.set sub { c with provided := c.provided + n, ran := true })
  else b = (a.1, a.2.set sub { c with provided := c.provided + n })

/-- The executions of statements. -/
inductive Big (D : Driver (Except Err) V P A) (ctx : Ctx P) (ok : List (IfCtx V) → Bool) (Sub : SubRun V) :
    Stmt → Env V → Env V → Prop where
  | skip {env} : Big D ctx ok Sub .skip env env
  | seq {a b env env₁ env₂} : Big D ctx ok Sub a env env₁ → Big D ctx ok Sub b env₁ env₂ →
      Big D ctx ok Sub (.seq a b) env env₂
  | storeVars {n} {src : Expr (.fld n)} {loc : Expr .idx} {env} {vs : List V} {k : Nat} {mem} : eval D ctx env src = .ok vs → eval D ctx env loc = .ok k →
      assign D env.ifs env.vars k vs = .ok mem → Big D ctx ok Sub (.storeVars n src loc) env { env with vars := mem }
  | storeSignals {n} {src : Expr (.fld n)} {loc : Expr .idx} {env} {vs : List V} {k : Nat} {mem} : eval D ctx env src = .ok vs →
      eval D ctx env loc = .ok k → assign D env.ifs env.signals (env.offset + k) vs = .ok mem →
      Big D ctx ok Sub (.storeSignals n src loc) env { env with signals := mem }
  | storeInput {mapped code n} {src : Expr (.fld n)} {loc cmp : Expr .idx} {env} {vs : List V} {k j : Nat} {c off sig sig' subs} :
      sharedCond env.ifs = none → eval D ctx env src = .ok vs → eval D ctx env loc = .ok k → eval D ctx env cmp = .ok j →
      env.subs[j]? = some c → signalOffset c mapped code k = some off → writeSlice env.signals off vs = some sig →
      ProvideRel Sub j c n (sig, env.subs) (sig', subs) →
      Big D ctx ok Sub (.storeInput mapped code n src loc cmp) env { env with signals := sig', subs := subs }
  | create {symbol offset jump n env decl sig subs} : ok env.ifs = true → ctx.templDecls symbol = some decl →
      CreateRel Sub decl ((List.range n).map fun i => env.offset + offset + i * jump) (env.signals, env.subs) (sig, subs) →
      Big D ctx ok Sub (.create symbol offset jump n) env { env with signals := sig, subs := subs }
  | iteShared {c : Expr (.fld 1)} {t e env env₁ env₂} {v : V} {last acc n acc' i r} : eval D ctx env c = .ok ([v] : List V) →
      D.isShared v = .ok true → (sharedCond env.ifs).getD D.one = last → D.bin .boolAnd last v = .ok acc →
      Big D ctx ok Sub t { env with ifs := .shared last acc v :: env.ifs } env₁ →
      env₁.ifs = .shared last acc v :: env.ifs → D.boolNot v = .ok n → D.bin .boolAnd last n = .ok acc' →
      Big D ctx ok Sub e { env₁ with ifs := .shared last acc' v :: env.ifs } env₂ → env₂.ifs = i :: r →
      Big D ctx ok Sub (.ite c t e) env { env₂ with ifs := r }
  | iteTrue {c : Expr (.fld 1)} {t e env env₁} {v : V} {r} : eval D ctx env c = .ok ([v] : List V) → D.isShared v = .ok false →
      D.isZero v false = .ok false → Big D ctx ok Sub t { env with ifs := .pub :: env.ifs } env₁ → env₁.ifs = .pub :: r →
      Big D ctx ok Sub (.ite c t e) env { env₁ with ifs := r }
  | iteFalse {c : Expr (.fld 1)} {t e env env₁} {v : V} {i r} : eval D ctx env c = .ok ([v] : List V) → D.isShared v = .ok false →
      D.isZero v false = .ok true → Big D ctx ok Sub e { env with ifs := .pub :: env.ifs } env₁ → env₁.ifs = i :: r →
      Big D ctx ok Sub (.ite c t e) env { env₁ with ifs := r }
  | ifShared {c : Expr (.fld 1)} {t env env₁} {v : V} {last acc} : eval D ctx env c = .ok ([v] : List V) →
      D.isShared v = .ok true → (sharedCond env.ifs).getD D.one = last → D.bin .boolAnd last v = .ok acc →
      Big D ctx ok Sub t { env with ifs := .shared last acc v :: env.ifs } env₁ →
      env₁.ifs = .shared last acc v :: env.ifs → Big D ctx ok Sub (.ifThen c t) env { env₁ with ifs := env.ifs }
  | ifTrue {c : Expr (.fld 1)} {t env env₁} {v : V} {r} : eval D ctx env c = .ok ([v] : List V) → D.isShared v = .ok false →
      D.isZero v false = .ok false → Big D ctx ok Sub t { env with ifs := .pub :: env.ifs } env₁ → env₁.ifs = .pub :: r →
      Big D ctx ok Sub (.ifThen c t) env { env₁ with ifs := r }
  | ifFalse {c : Expr (.fld 1)} {t env} {v : V} : eval D ctx env c = .ok ([v] : List V) → D.isShared v = .ok false →
      D.isZero v false = .ok true → ok env.ifs = true → Big D ctx ok Sub (.ifThen c t) env { env with ifs := .pub :: env.ifs }
  | loopDone {c : Expr (.fld 1)} {b env} {v : V} : eval D ctx env c = .ok ([v] : List V) → D.isZero v false = .ok true →
      Big D ctx ok Sub (.loop c b) env env
  | loopStep {c : Expr (.fld 1)} {b env env₁ env₂} {v : V} : eval D ctx env c = .ok ([v] : List V) → D.isZero v false = .ok false →
      Big D ctx ok Sub b env env₁ → Big D ctx ok Sub (.loop c b) env₁ env₂ → Big D ctx ok Sub (.loop c b) env env₂
  | assert {line} {e : Expr (.fld 1)} {env} {v : V} : eval D ctx env e = .ok ([v] : List V) → D.isZero v true = .ok false →
      Big D ctx ok Sub (.assert line e) env env
  | log {e : Expr (.fld 1)} {env} {v : V} {o} : eval D ctx env e = .ok ([v] : List V) → D.log v ctx.leakyLogs = .ok o →
      Big D ctx ok Sub (.log e) env env
  | logString {k env} : k < ctx.strings → Big D ctx ok Sub (.logString k) env env
  | logFlush {line env} : Big D ctx ok Sub (.logFlush line) env env

variable {D : Driver (Except Err) V P A} {ctx : Ctx P} {ok : List (IfCtx V) → Bool} {Sub Sub' : SubRun V}

theorem CreateRel.mono (h : ∀ d o a b, Sub d o a b → Sub' d o a b) {decl : TemplateDecl} {l : List Nat}
    {a b : List V × List Comp} (hc : CreateRel Sub decl l a b) : CreateRel Sub' decl l a b := by
  induction l generalizing a with
  | nil => exact hc
  | cons off r ih =>
    simp only [CreateRel] at hc ⊢
    split at hc
    · obtain ⟨sig, h1, h2⟩ := hc
      rw [if_pos ‹_›]
      exact ⟨sig, h _ _ _ _ h1, ih h2⟩
    · rw [if_neg ‹_›]
      exact ih hc

theorem ProvideRel.mono (h : ∀ d o a b, Sub d o a b → Sub' d o a b) {sub n : Nat} {c : Comp}
    {a b : List V × List Comp} (hc : ProvideRel Sub sub c n a b) : ProvideRel Sub' sub c n a b := by
  simp only [ProvideRel] at hc ⊢
  split at hc
  · obtain ⟨h0, sig, h1, h2⟩ := hc
    rw [if_pos ‹_›]
    exact ⟨h0, sig, h _ _ _ _ h1, h2⟩
  · rw [if_neg ‹_›]
    exact hc

theorem Big.mono (h : ∀ d o a b, Sub d o a b → Sub' d o a b) {c : Stmt} {env env' : Env V} (hb : Big D ctx ok Sub c env env') :
    Big D ctx ok Sub' c env env' := by
  induction hb with
  | skip => exact .skip
  | seq _ _ ih ih' => exact .seq ih ih'
  | storeVars h1 h2 h3 => exact .storeVars h1 h2 h3
  | storeSignals h1 h2 h3 => exact .storeSignals h1 h2 h3
  | storeInput h0 h1 h2 h3 h4 h5 h6 h7 => exact .storeInput h0 h1 h2 h3 h4 h5 h6 (h7.mono h)
  | create h1 h2 h3 => exact .create h1 h2 (h3.mono h)
  | iteShared h1 h2 h3 h4 _ h6 h7 h8 _ h10 ih ih' => exact .iteShared h1 h2 h3 h4 ih h6 h7 h8 ih' h10
  | iteTrue h1 h2 h3 _ h5 ih => exact .iteTrue h1 h2 h3 ih h5
  | iteFalse h1 h2 h3 _ h5 ih => exact .iteFalse h1 h2 h3 ih h5
  | ifShared h1 h2 h3 h4 _ h6 ih => exact .ifShared h1 h2 h3 h4 ih h6
  | ifTrue h1 h2 h3 _ h5 ih => exact .ifTrue h1 h2 h3 ih h5
  | ifFalse h1 h2 h3 h4 => exact .ifFalse h1 h2 h3 h4
  | loopDone h1 h2 => exact .loopDone h1 h2
  | loopStep h1 h2 _ _ ih ih' => exact .loopStep h1 h2 ih ih'
  | assert h1 h2 => exact .assert h1 h2
  | log h1 h2 => exact .log h1 h2
  | logString h => exact .logString h
  | logFlush => exact .logFlush

/-! ### The branches that are open -/

/-- `b` is `a` with more public branches, and only if there is no secret one. -/
def Leaks (a b : List (IfCtx V)) : Prop :=
  ∃ l, b = l ++ a ∧ (∀ i ∈ l, i = .pub) ∧ (sharedCond a ≠ none → l = [])

theorem Leaks.refl (a : List (IfCtx V)) : Leaks a a := ⟨[], rfl, by simp, fun _ => rfl⟩

theorem sharedCond_append {l a : List (IfCtx V)} (h : ∀ i ∈ l, i = .pub) : sharedCond (l ++ a) = sharedCond a := by
  induction l with
  | nil => rfl
  | cons i l ih =>
    obtain rfl := h i (by simp)
    exact ih fun j hj => h j (by simp [hj])

theorem Leaks.shared {a b : List (IfCtx V)} (h : Leaks a b) : sharedCond b = sharedCond a := by
  obtain ⟨l, rfl, hl, -⟩ := h
  exact sharedCond_append hl

theorem Leaks.trans {a b c : List (IfCtx V)} (h : Leaks a b) (h' : Leaks b c) : Leaks a c := by
  have hs := h.shared
  obtain ⟨l, rfl, hl, h1⟩ := h
  obtain ⟨l', rfl, hl', h2⟩ := h'
  refine ⟨l' ++ l, by simp, ?_, fun hn => ?_⟩
  · intro i hi
    rcases List.mem_append.mp hi with h | h
    · exact hl' i h
    · exact hl i h
  · rw [h1 hn, h2 (by rw [hs]; exact hn)]; rfl

theorem Leaks.eq {a b : List (IfCtx V)} (h : Leaks a b) (hn : sharedCond a ≠ none) : b = a := by
  obtain ⟨l, rfl, -, h1⟩ := h
  rw [h1 hn]; rfl

theorem Leaks.pop {a b : List (IfCtx V)} (h : Leaks (.pub :: a) b) : ∃ r, b = .pub :: r ∧ Leaks a r := by
  obtain ⟨l, rfl, hl, h1⟩ := h
  cases l with
  | nil => exact ⟨a, rfl, .refl a⟩
  | cons i l =>
    obtain rfl := hl i (by simp)
    refine ⟨l ++ .pub :: a, rfl, l ++ [.pub], by simp, ?_, fun hn => ?_⟩
    · intro i hi
      rcases List.mem_append.mp hi with h | h
      · exact hl i (by simp [h])
      · simpa using h
    · cases h1 hn

/-- Statements close the branches that they open, up to public ones. -/
theorem Big.leaks (hok : ∀ ifs, ok ifs = true → sharedCond ifs = none) {c : Stmt} {env env' : Env V}
    (hb : Big D ctx ok Sub c env env') : Leaks env.ifs env'.ifs := by
  induction hb with
  | seq _ _ ih ih' => exact ih.trans ih'
  | iteShared h1 h2 h3 h4 _ h6 h7 h8 _ h10 ih ih' =>
    have := ih'.eq (by simp [sharedCond])
    rw [h10] at this
    obtain ⟨-, rfl⟩ := List.cons.inj this
    exact .refl _
  | iteTrue h1 h2 h3 _ h5 ih =>
    obtain ⟨r, h, hl⟩ := ih.pop
    obtain ⟨-, rfl⟩ := List.cons.inj (h5.symm.trans h)
    exact hl
  | iteFalse h1 h2 h3 _ h5 ih =>
    obtain ⟨r, h, hl⟩ := ih.pop
    obtain ⟨-, rfl⟩ := List.cons.inj (h5.symm.trans h)
    exact hl
  | ifTrue h1 h2 h3 _ h5 ih =>
    obtain ⟨r, h, hl⟩ := ih.pop
    obtain ⟨-, rfl⟩ := List.cons.inj (h5.symm.trans h)
    exact hl
  | ifFalse h1 h2 h3 h4 => exact ⟨[.pub], rfl, by simp, fun hn => absurd (hok _ h4) hn⟩
  | loopStep h1 h2 _ _ ih ih' => exact ih.trans ih'
  | _ => exact .refl _

/-! ### More fuel -/

/-- A value as related to itself. -/
def selfW (v : V) : RelW (fun (x : Unit → V) v => x () = v) := ⟨fun _ => v, v, rfl⟩

theorem map_selfW_left {i : Unit} (l : List V) : (l.map selfW).map (RelW.left i) = l := by
  rw [List.map_map]; exact List.map_id l

theorem map_selfW_right (l : List V) : (l.map selfW).map RelW.right = l := by
  rw [List.map_map]; exact List.map_id l

theorem St.map_map_id {W : Type} {g : V → W} {f : W → V} (h : ∀ v, f (g v) = v) (s : St V) : (s.map g).map f = s := by
  have h1 : f ∘ g = id := funext h
  have h2 : List.map f ∘ List.map g = id := by rw [List.map_comp_map, h1, List.map_id_fun]
  have h3 : Prod.map f (List.map f) ∘ Prod.map g (List.map g) = id := by rw [Prod.map_comp_map, h1, h2, Prod.map_id]
  have h4 : IfCtx.map f ∘ IfCtx.map g = id := by
    funext x
    cases x <;> simp [IfCtx.map, h]
  have h5 : FunCtx.map f ∘ FunCtx.map g = id := by
    funext x
    simp [FunCtx.map, h1, h3]
  simp only [St.map, List.map_map, h1, h2, h3, h4, h5, List.map_id]

theorem St.map_congr {W V' : Type} {f g : W → V'} (h : ∀ w, f w = g w) (s : St W) : s.map f = s.map g := by
  rw [show f = g from funext h]

section

variable (hf : ∀ {α : Type} e, D.fail (α := α) e = .error e)

include hf

theorem step_mono {run run' : TemplateDecl → Nat → List V → Except Err (List V)}
    (hrun : ∀ d o a b, run d o a = .ok b → run' d o a = .ok b) {op : OpCode} {s s' : St V}
    (h : step D ctx run op s = .ok s') : step D ctx run' op s = .ok s' := by
  have hsub : DriverRel.SubRel exceptRel (fun (x : Unit → V) v => x () = v) run' run := by
    intro d o l b hb
    refine ⟨b, hrun _ _ _ _ ?_, b.map selfW, ?_, ?_⟩
    · have : (l.map (RelW.left ())) = l.map RelW.right := List.map_congr_left fun w _ => w.rel
      rw [this]; exact hb
    · funext i; exact (map_selfW_left b).symm
    · exact (map_selfW_right b).symm
  obtain ⟨a, ha, W, hW, rfl⟩ := (self_rel (D := D) hf).step ctx hsub op (s.map selfW) s'
    (by rw [St.map_map_id fun _ => rfl]; exact h)
  beta_reduce at ha
  rw [St.map_map_id fun _ => rfl] at ha
  rw [ha]
  have := congrFun hW ()
  simp only at this
  rw [this, St.map_congr fun w => w.rel]

theorem runComp_mono {run run' : St V → Except Err (List V)} (hrun : ∀ s b, run s = .ok b → run' s = .ok b)
    {d : TemplateDecl} {o : Nat} {a b : List V} (h : runComp D ctx run d o a = .ok b) : runComp D ctx run' d o a = .ok b := by
  unfold runComp at h ⊢
  split at h
  · exact h
  · exact hrun _ _ h

theorem loopC_mono {n k : Nat} (hk : n ≤ k) {s : St V} {r : List V} (h : loopC D ok ctx n s = .ok r) :
    loopC D ok ctx k s = .ok r := by
  induction n generalizing k s r with
  | zero => rw [loopC, hf] at h; cases h
  | succ n ih =>
    obtain ⟨k, rfl⟩ : ∃ j, k = j + 1 := ⟨k - 1, by omega⟩
    simp only [loopC] at h ⊢
    obtain ⟨op, h1, h⟩ := bind_ok h
    refine Except.bind_ok_iff.mpr ⟨op, h1, ?_⟩
    split at h
    · rw [if_pos ‹_›]; exact h
    · rw [if_neg ‹_›]
      obtain ⟨_, h2, h⟩ := bind_ok h
      obtain ⟨s', h3, h⟩ := bind_ok h
      refine Except.bind_ok_iff.mpr ⟨_, h2, Except.bind_ok_iff.mpr ⟨s', ?_, ih (by omega) h⟩⟩
      exact step_mono hf (fun d o a b => runComp_mono hf fun s b h => ih (by omega : n ≤ k) h) h3

/-- The checked loop agrees with the loop. -/
theorem loop_of_loopC {n : Nat} {s : St V} {r : List V} (h : loopC D ok ctx n s = .ok r) :
    loop D ctx n s = .ok r := by
  induction n generalizing s r with
  | zero => rw [loopC, hf] at h; cases h
  | succ n ih =>
    simp only [loopC] at h
    simp only [loop]
    obtain ⟨op, h1, h⟩ := bind_ok h
    refine Except.bind_ok_iff.mpr ⟨op, h1, ?_⟩
    split at h
    · rw [if_pos ‹_›]; exact h
    · rw [if_neg ‹_›]
      obtain ⟨_, h2, h⟩ := bind_ok h
      obtain ⟨s', h3, h⟩ := bind_ok h
      refine Except.bind_ok_iff.mpr ⟨s', ?_, ih h⟩
      exact step_mono hf (fun d o a b => runComp_mono hf fun s b => ih) h3

/-! ### The control instructions -/

omit hf in
theorem step_branch {run : TemplateDecl → Nat → List V → Except Err (List V)} {s : St V} (hfr : s.Framed) (k j : Nat) (x : V) :
    step D ctx run (.branch j) (s.put k (.fld 1) ([x] : List V)) = (do
      let sh ← D.isShared x
      if sh then do
        let acc ← D.bin .boolAnd ((sharedCond s.ifs).getD D.one) x
        .ok (s.after (k + 1) { s.env with ifs := .shared ((sharedCond s.ifs).getD D.one) acc x :: s.ifs })
      else do
        let z ← D.isZero x false
        .ok (s.after (if z then k + j else k + 1) { s.env with ifs := .pub :: s.ifs })) := by
  obtain ⟨⟨f, q, hq⟩, -⟩ := hfr
  simp only [step, opBranch, St.put, hq, St.pop, orFail, List.reverse_singleton, List.singleton_append, pure_bind]
  cases D.isShared x with
  | error => rfl
  | ok sh =>
    cases sh with
    | true =>
      simp only [bind, Except.bind, if_true, branchShared, pushShared]
      cases D.bin .boolAnd ((sharedCond s.ifs).getD D.one) x <;>
        simp [St.after, St.env, St.next, hq, pure, Except.pure, Nat.add_assoc]
    | false =>
      simp only [bind, Except.bind, branchPublic]
      cases D.isZero x false with
      | error => rfl
      | ok z => cases z <;> simp [St.after, St.env, hq, pure, Except.pure, Nat.add_assoc]

omit hf in
theorem step_jumpIfFalse {run : TemplateDecl → Nat → List V → Except Err (List V)} {s : St V} (hfr : s.Framed) (k j : Nat)
    (x : V) : step D ctx run (.jumpIfFalse j) (s.put k (.fld 1) ([x] : List V)) = (do
      let z ← D.isZero x false
      .ok (s.after (if z then k + j else k + 1) s.env)) := by
  obtain ⟨⟨f, q, hq⟩, -⟩ := hfr
  simp only [step, opJumpIfFalse, St.put, hq, St.pop, orFail, List.reverse_singleton, List.singleton_append, pure_bind]
  cases D.isZero x false with
  | error => rfl
  | ok z => cases z <;> simp [St.after, St.env, hq, pure, Except.pure, bind, Except.bind, Nat.add_assoc]

omit hf in
theorem step_endTruthy_pub {run : TemplateDecl → Nat → List V → Except Err (List V)} {s : St V} {r : List (IfCtx V)}
    (h : s.ifs = .pub :: r) (j : Nat) :
    step D ctx run (.endTruthyBranch j) s = .ok (s.after (max 1 j) { s.env with ifs := r }) := by
  simp [step, opEndTruthyBranch, h, St.after, St.env, pure, Except.pure]

omit hf in
theorem step_endTruthy_zero {run : TemplateDecl → Nat → List V → Except Err (List V)} {s : St V} {r : List (IfCtx V)}
    {last acc cond : V} (h : s.ifs = .shared last acc cond :: r) :
    step D ctx run (.endTruthyBranch 0) s = .ok (s.after 1 { s.env with ifs := r }) := by
  simp [step, opEndTruthyBranch, h, toggle, St.after, St.env, St.next, pure, Except.pure]

omit hf in
theorem step_endTruthy {run : TemplateDecl → Nat → List V → Except Err (List V)} {s : St V} {r : List (IfCtx V)}
    {last acc cond : V} (h : s.ifs = .shared last acc cond :: r) (j : Nat) :
    step D ctx run (.endTruthyBranch (j + 1)) s = (do
      let n ← D.boolNot cond
      let acc ← D.bin .boolAnd last n
      .ok (s.after 1 { s.env with ifs := .shared last acc cond :: r })) := by
  simp [step, opEndTruthyBranch, h, toggle, St.after, St.env, St.next, pure, Except.pure]

omit hf in
theorem step_endFalsy {run : TemplateDecl → Nat → List V → Except Err (List V)} {s : St V} {i : IfCtx V} {r : List (IfCtx V)}
    (h : s.ifs = i :: r) : step D ctx run .endFalsyBranch s = .ok (s.after 1 { s.env with ifs := r }) := by
  simp [step, opEndFalsyBranch, h, St.after, St.env, St.next, pure, Except.pure]

/-- Every way to give inputs to a component. -/
theorem provide_ok {run : TemplateDecl → Nat → List V → Except Err (List V)} {sub n : Nat} {c : Comp} {s s' : St V} :
    provide D run sub c n s = .ok s' ↔ ∃ sig subs,
      ProvideRel (fun d o a b => run d o a = .ok b) sub c n (s.signals, s.subs) (sig, subs) ∧
      s' = { s with signals := sig, subs := subs } := by
  simp only [provide, ProvideRel]
  by_cases h : c.provided + n = c.decl.inputSignals
  · simp only [if_pos h]
    cases hr : c.ran with
    | true => simp [hf]
    | false =>
      simp only [Bool.false_eq_true, if_false, Except.bind_ok_iff, Except.pure_ok_iff, true_and, Prod.mk.injEq]
      constructor
      · rintro ⟨sig, h1, rfl⟩
        exact ⟨sig, _, ⟨sig, h1, rfl, rfl⟩, rfl⟩
      · rintro ⟨_, _, ⟨sig, h1, rfl, rfl⟩, rfl⟩
        exact ⟨_, h1, rfl⟩
  · simp only [if_neg h, Except.pure_ok_iff, Prod.mk.injEq]
    constructor
    · rintro rfl
      exact ⟨_, _, ⟨rfl, rfl⟩, rfl⟩
    · rintro ⟨_, _, ⟨rfl, rfl⟩, rfl⟩
      rfl

omit hf in
/-- Every way to create components. -/
theorem create_ok {run : TemplateDecl → Nat → List V → Except Err (List V)} {decl : TemplateDecl} {l : List Nat}
    {s s' : St V} : l.foldlM (createOne run decl) s = .ok s' ↔ ∃ sig subs,
      CreateRel (fun d o a b => run d o a = .ok b) decl l (s.signals, s.subs) (sig, subs) ∧
      s' = { s with signals := sig, subs := subs } := by
  induction l generalizing s with
  | nil =>
    simp only [List.foldlM_nil, CreateRel, Except.pure_ok_iff, Prod.mk.injEq]
    constructor
    · rintro rfl; exact ⟨_, _, ⟨rfl, rfl⟩, rfl⟩
    · rintro ⟨_, _, ⟨rfl, rfl⟩, rfl⟩; rfl
  | cons off r ih =>
    simp only [List.foldlM_cons, CreateRel, Except.bind_ok_iff, createOne]
    by_cases h : decl.inputSignals = 0
    · simp only [if_pos h, Except.bind_ok_iff, Except.pure_ok_iff]
      constructor
      · rintro ⟨_, ⟨sig, h1, rfl⟩, h2⟩
        obtain ⟨sig', subs, h3, rfl⟩ := ih.mp h2
        exact ⟨sig', subs, ⟨sig, h1, h3⟩, rfl⟩
      · rintro ⟨sig', subs, ⟨sig, h1, h3⟩, rfl⟩
        exact ⟨_, ⟨sig, h1, rfl⟩, ih.mpr ⟨sig', subs, h3, rfl⟩⟩
    · simp only [if_neg h, Except.pure_ok_iff]
      constructor
      · rintro ⟨_, rfl, h2⟩
        obtain ⟨sig', subs, h3, rfl⟩ := ih.mp h2
        exact ⟨sig', subs, h3, rfl⟩
      · rintro ⟨sig', subs, h3, rfl⟩
        exact ⟨_, rfl, ih.mpr ⟨sig', subs, h3, rfl⟩⟩

theorem step_input {run : TemplateDecl → Nat → List V → Except Err (List V)} {s s' : St V} (hfr : s.Framed)
    {mapped : Bool} {code n a b c : Nat} {vs : List V} (hl : vs.length = n) {k j : Nat} :
    step D ctx run (.inputSubComp mapped code n) (((s.put a (.fld n) vs).put b .idx k).put c .idx j) = .ok s' ↔
      sharedCond s.ifs = none ∧ ∃ d off sig sig' subs, s.subs[j]? = some d ∧ signalOffset d mapped code k = some off ∧
        writeSlice s.signals off vs = some sig ∧
        ProvideRel (fun d o a b => run d o a = .ok b) j d n (sig, s.subs) (sig', subs) ∧
        s' = s.after (a + (b + (c + 1))) { s.env with signals := sig', subs := subs } := by
  obtain ⟨⟨f, q, hq⟩, f', q', hq'⟩ := hfr
  have h1 : (((s.put a (.fld n) vs).put b .idx k).put c .idx j).ifs = s.ifs := rfl
  simp only [step, opInputSubComp, h1]
  cases hs : sharedCond s.ifs with
  | some x => simp [hf]
  | none =>
    simp only [Option.isSome_none, Bool.false_eq_true, if_false, true_and, Except.bind_ok_iff, orFail_ok hf]
    simp only [St.put, St.popIdx, hq', hq, St.popN, List.length_append, List.length_reverse, hl, Nat.le_add_right, if_true,
      Option.some.injEq, exists_eq_left', List.take_left' (by simpa using hl : vs.reverse.length = n),
      List.drop_left' (by simpa using hl : vs.reverse.length = n), List.reverse_reverse]
    constructor
    · rintro ⟨d, h1, off, h2, sig, h3, s₁, h4, h5⟩
      obtain ⟨sig', subs, h6, rfl⟩ := (provide_ok hf).mp h4
      obtain rfl := ok_inj.mp h5
      refine ⟨d, off, sig, sig', subs, h1, h2, h3, h6, ?_⟩
      simp [St.after, St.env, St.next, hq, hq', Nat.add_assoc]
    · rintro ⟨d, off, sig, sig', subs, h1, h2, h3, h6, rfl⟩
      refine ⟨d, h1, off, h2, sig, h3, _, (provide_ok hf).mpr ⟨sig', subs, h6, rfl⟩, ok_inj.mpr ?_⟩
      simp [St.after, St.env, St.next, hq, hq', Nat.add_assoc]

theorem step_create {run : TemplateDecl → Nat → List V → Except Err (List V)} {s s' : St V} (hfr : s.Framed)
    {symbol : String} {n off jump : Nat} :
    step D ctx run (.createCmp symbol n) ((s.put 1 .idx off).put 1 .idx jump) = .ok s' ↔
      ∃ decl sig subs, ctx.templDecls symbol = some decl ∧
        CreateRel (fun d o a b => run d o a = .ok b) decl ((List.range n).map fun i => s.offset + off + i * jump)
          (s.signals, s.subs) (sig, subs) ∧
        s' = s.after 3 { s.env with signals := sig, subs := subs } := by
  obtain ⟨⟨f, q, hq⟩, f', q', hq'⟩ := hfr
  simp only [step, opCreateCmp, Except.bind_ok_iff, orFail_ok hf]
  simp only [St.put, St.popIdx, hq', Option.some.injEq, exists_eq_left']
  cases hd : ctx.templDecls symbol with
  | none => simp [hf]
  | some decl =>
    simp only [Except.bind_ok_iff, Option.some.injEq, exists_and_left, exists_eq_left']
    constructor
    · rintro ⟨s₁, h1, h2⟩
      obtain ⟨sig', subs, h6, rfl⟩ := create_ok.mp h1
      obtain rfl := ok_inj.mp h2
      refine ⟨sig', subs, h6, ?_⟩
      simp [St.after, St.env, St.next, hq', Nat.add_assoc]
    · rintro ⟨sig', subs, h6, rfl⟩
      refine ⟨_, create_ok.mpr ⟨sig', subs, h6, rfl⟩, ok_inj.mpr ?_⟩
      simp [St.after, St.env, St.next, hq', Nat.add_assoc]

end

end Verif.CircomVm
