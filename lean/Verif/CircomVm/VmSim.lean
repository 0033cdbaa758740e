import Verif.CircomVm.VmMap
import Verif.Rep3.Cols

/-!
# Runs of the VM with two drivers whose operations correspond

If the operations of two drivers correspond, then so do the runs of the VM, for every program.
-/

namespace Verif.CircomVm

/-- A correspondence of the computations of the parties `ι` in a monad `m` with single computations in `n`. -/
structure MonadRel (ι : Type) (m n : Type → Type) [Monad m] [Monad n] where
  Rel : {α β : Type} → ((ι → α) → β → Prop) → (ι → m α) → n β → Prop
  pure : ∀ {α β : Type} {Q : (ι → α) → β → Prop} {a : ι → α} {b : β}, Q a b → Rel Q (fun i => Pure.pure (a i)) (Pure.pure b)
  bind : ∀ {α β γ δ : Type} {Q : (ι → α) → β → Prop} {Q' : (ι → γ) → δ → Prop} {p : ι → m α} {q : n β}
    {f : ι → α → m γ} {g : β → n δ}, Rel Q p q → (∀ a b, Q a b → Rel Q' (fun i => f i (a i)) (g b)) →
    Rel Q' (fun i => p i >>= f i) (q >>= g)
  mono : ∀ {α β : Type} {Q Q' : (ι → α) → β → Prop} {p : ι → m α} {q : n β}, Rel Q p q → (∀ a b, Q a b → Q' a b) →
    Rel Q' p q

/-- All parties have the same value as the single computation. -/
def Same {ι α : Type} (a : ι → α) (b : α) : Prop := a = fun _ => b

/-- Both sides are images of the same value. -/
def Img {ι T α β : Type} (f : ι → T → α) (g : T → β) (a : ι → α) (b : β) : Prop := ∃ t, a = (fun i => f i t) ∧ b = g t

/-- The operations of two drivers correspond: values in the sense of `VR`, opened values are equal, shares in the sense of
`AR`. -/
structure DriverRel {ι : Type} {m n : Type → Type} [Monad m] [Monad n] (R : MonadRel ι m n) {V V' P A A' : Type}
    (D : Driver m V P A) (D' : Driver n V' P A') (VR : (ι → V) → V' → Prop) (AR : (ι → A) → A' → Prop) : Prop where
  bin : ∀ op {x x' y y'}, VR x x' → VR y y' → R.Rel VR (fun i => D.bin op (x i) (y i)) (D'.bin op x' y')
  neg : ∀ {x x'}, VR x x' → R.Rel VR (fun i => D.neg (x i)) (D'.neg x')
  sqrt : ∀ {x x'}, VR x x' → R.Rel VR (fun i => D.sqrt (x i)) (D'.sqrt x')
  boolNot : ∀ {x x'}, VR x x' → R.Rel VR (fun i => D.boolNot (x i)) (D'.boolNot x')
  cmux : ∀ {c c' x x' y y'}, VR c c' → VR x x' → VR y y' →
    R.Rel VR (fun i => D.cmux (c i) (x i) (y i)) (D'.cmux c' x' y')
  isZero : ∀ {x x'} allow, VR x x' → R.Rel Same (fun i => D.isZero (x i) allow) (D'.isZero x' allow)
  isShared : ∀ {x x'}, VR x x' → R.Rel Same (fun i => D.isShared (x i)) (D'.isShared x')
  toIndex : ∀ {x x'}, VR x x' → R.Rel Same (fun i => D.toIndex (x i)) (D'.toIndex x')
  openV : ∀ {x x'}, VR x x' → R.Rel Same (fun i => D.openV (x i)) (D'.openV x')
  toShare : ∀ {x x'}, VR x x' → R.Rel AR (fun i => D.toShare (x i)) (D'.toShare x')
  one : VR (fun _ => D.one) D'.one
  zero : VR (fun _ => D.zero) D'.zero
  num2bits : ∀ {x x'} n, VR x x' → R.Rel (Cols VR) (fun i => D.num2bits (x i) n) (D'.num2bits x' n)
  addbits : ∀ {x x' y y'}, Cols VR x x' → Cols VR y y' →
    R.Rel (fun a b => Cols VR (fun i => (a i).1) b.1 ∧ VR (fun i => (a i).2) b.2)
      (fun i => D.addbits (x i) (y i)) (D'.addbits x' y')
  log : ∀ {x x'} leaky, VR x x' → R.Rel (fun _ _ => True) (fun i => D.log (x i) leaky) (D'.log x' leaky)
  compareConfig : ∀ c, R.Rel (fun _ _ => True) (fun _ => D.compareConfig c) (D'.compareConfig c)
  ofPub : ∀ c, VR (fun _ => D.ofPub c) (D'.ofPub c)
  fail : ∀ {α β : Type} (Q : (ι → α) → β → Prop) (p : ι → m α) e, R.Rel Q p (D'.fail e)

/-- Related values: what the parties have, and what the single computation has. -/
structure RelW {ι V V' : Type} (VR : (ι → V) → V' → Prop) where
  all : ι → V
  right : V'
  rel : VR all right

/-- What party `i` has. -/
def RelW.left {ι V V' : Type} {VR : (ι → V) → V' → Prop} (i : ι) (w : RelW VR) : V := w.all i

theorem cols_iff {ι V V' : Type} {VR : (ι → V) → V' → Prop} {x : ι → List V} {x' : List V'} :
    Cols VR x x' ↔ ∃ l : List (RelW VR), (x = fun i => l.map (RelW.left i)) ∧ x' = l.map RelW.right := by
  constructor
  · rintro ⟨l, rfl, hl⟩
    induction hl with
    | nil => exact ⟨[], rfl, rfl⟩
    | @cons a b as bs h _ ih =>
      obtain ⟨l, h1, rfl⟩ := ih
      refine ⟨⟨a, b, h⟩ :: l, ?_, rfl⟩
      funext i
      exact congrArg (a i :: ·) (congrFun h1 i)
  · rintro ⟨l, rfl, rfl⟩
    refine ⟨l.map RelW.all, ?_, ?_⟩
    · funext i; simp [RelW.left, Function.comp_def]
    · induction l with
      | nil => exact .nil
      | cons w l ih => exact .cons w.rel ih

section

variable {ι : Type} {m n : Type → Type} [Monad m] [Monad n] {R : MonadRel ι m n} {V V' P A A' : Type}
  {D : Driver m V P A} {D' : Driver n V' P A'} {VR : (ι → V) → V' → Prop} {AR : (ι → A) → A' → Prop}

/-- Related values, as images. -/
abbrev Vals (VR : (ι → V) → V' → Prop) : (ι → V) → V' → Prop := Img (fun i (w : RelW VR) => w.left i) RelW.right

/-- Related lists. -/
abbrev Lists (VR : (ι → V) → V' → Prop) : (ι → List V) → List V' → Prop :=
  Img (fun i (w : List (RelW VR)) => w.map (RelW.left i)) (List.map RelW.right)

/-- Related states. -/
abbrev Sts (VR : (ι → V) → V' → Prop) : (ι → St V) → St V' → Prop :=
  Img (fun i (w : St (RelW VR)) => w.map (RelW.left i)) (St.map RelW.right)

theorem vals_of {a : ι → V} {b : V'} (h : VR a b) : Vals VR a b := ⟨⟨a, b, h⟩, rfl, rfl⟩

theorem MonadRel.vals {p : ι → m V} {q : n V'} (h : R.Rel VR p q) : R.Rel (Vals VR) p q :=
  R.mono h fun _ _ h => vals_of h

theorem MonadRel.lists {p : ι → m (List V)} {q : n (List V')} (h : R.Rel (Cols VR) p q) : R.Rel (Lists VR) p q :=
  R.mono h fun _ _ h => cols_iff.mp h

namespace DriverRel

variable (hD : DriverRel R D D' VR AR)
include hD

theorem orFail {T α β : Type} (msg : String) (o : Option T) (f : ι → T → α) (g : T → β) :
    R.Rel (Img f g) (fun i => orFail D msg (o.map (f i))) (CircomVm.orFail D' msg (o.map g)) := by
  cases o with
  | none => exact hD.fail _ _ _
  | some t => exact R.pure ⟨t, rfl, rfl⟩

/-- A partial operation, then the rest. -/
theorem orFailBind {T α β γ δ : Type} {Q : (ι → γ) → δ → Prop} {msg : String} {o : Option T} {f : ι → T → α} {g : T → β}
    {a : ι → Option α} {b : Option β} {k : ι → α → m γ} {k' : β → n δ}
    (ha : ∀ i, a i = o.map (f i)) (hb : b = o.map g)
    (h : ∀ t, o = some t → R.Rel Q (fun i => k i (f i t)) (k' (g t))) :
    R.Rel Q (fun i => CircomVm.orFail D msg (a i) >>= k i) (CircomVm.orFail D' msg b >>= k') := by
  obtain rfl : a = fun i => o.map (f i) := funext ha
  subst hb
  cases o with
  | none =>
    exact R.bind (hD.fail (fun _ _ => False) _ _) fun _ _ h => h.elim
  | some t =>
    refine R.bind (R.pure (Q := fun a b => a = (fun i => f i t) ∧ b = g t) ⟨rfl, rfl⟩) ?_
    rintro _ _ ⟨rfl, rfl⟩
    exact h t rfl

theorem loadSignals (k : Nat) (S : St (RelW VR)) :
    R.Rel (Sts VR) (fun i => opLoadSignals D k (S.map (RelW.left i))) (opLoadSignals D' k (S.map RelW.right)) := by
  unfold opLoadSignals
  refine hD.orFailBind (fun i => St.popIdx_map _ S) (St.popIdx_map _ S) fun ⟨x, S⟩ _ => ?_
  refine hD.orFailBind (fun i => readSlice_map _ S.signals (S.offset + x) k)
    (readSlice_map _ S.signals (S.offset + x) k) fun vals _ => ?_
  refine hD.orFailBind (fun i => St.pushAll_map _ S vals) (St.pushAll_map _ S vals) fun S _ => ?_
  exact R.pure ⟨S.next, rfl, rfl⟩

theorem loadVars (k : Nat) (S : St (RelW VR)) :
    R.Rel (Sts VR) (fun i => opLoadVars D k (S.map (RelW.left i))) (opLoadVars D' k (S.map RelW.right)) := by
  unfold opLoadVars
  refine hD.orFailBind (fun i => St.popIdx_map _ S) (St.popIdx_map _ S) fun ⟨x, S⟩ _ => ?_
  refine hD.orFailBind (fun i => readSlice_map _ S.vars x k) (readSlice_map _ S.vars x k) fun vals _ => ?_
  refine hD.orFailBind (fun i => St.pushAll_map _ S vals) (St.pushAll_map _ S vals) fun S _ => ?_
  exact R.pure ⟨S.next, rfl, rfl⟩

/-- One value, then the rest. -/
theorem valsBind {γ δ : Type} {Q : (ι → γ) → δ → Prop} {p : ι → m V} {q : n V'} {k : ι → V → m γ} {k' : V' → n δ}
    (hp : R.Rel VR p q) (h : ∀ w : RelW VR, R.Rel Q (fun i => k i (w.left i)) (k' w.right)) :
    R.Rel Q (fun i => p i >>= k i) (q >>= k') :=
  R.bind hp fun a b hab => h ⟨a, b, hab⟩

/-- A value that all have, then the rest. -/
theorem sameBind {α γ δ : Type} {Q : (ι → γ) → δ → Prop} {p : ι → m α} {q : n α} {k : ι → α → m γ} {k' : α → n δ}
    (hp : R.Rel Same p q) (h : ∀ w, R.Rel Q (fun i => k i w) (k' w)) :
    R.Rel Q (fun i => p i >>= k i) (q >>= k') := by
  refine R.bind hp ?_
  rintro _ b rfl
  exact h b

/-- The image of something, then the rest. -/
theorem imgBind {T α β γ δ : Type} {f : ι → T → α} {g : T → β} {Q : (ι → γ) → δ → Prop} {p : ι → m α} {q : n β}
    {k : ι → α → m γ} {k' : β → n δ} (hp : R.Rel (Img f g) p q) (h : ∀ t, R.Rel Q (fun i => k i (f i t)) (k' (g t))) :
    R.Rel Q (fun i => p i >>= k i) (q >>= k') := by
  refine R.bind hp ?_
  rintro _ _ ⟨t, rfl, rfl⟩
  exact h t

/-- Loops. -/
theorem foldlM {T α β U a b : Type} [LawfulMonad m] [LawfulMonad n] {f : ι → T → α} {g : T → β} {u : ι → U → a} {v : U → b}
    {k : ι → α → a → m α} {k' : β → b → n β}
    (h : ∀ t x, R.Rel (Img f g) (fun i => k i (f i t) (u i x)) (k' (g t) (v x))) (l : List U) (t : T) :
    R.Rel (Img f g) (fun i => (l.map (u i)).foldlM (k i) (f i t)) ((l.map v).foldlM k' (g t)) := by
  induction l generalizing t with
  | nil => exact R.pure ⟨t, rfl, rfl⟩
  | cons x l ih =>
    simp only [List.map_cons, List.foldlM_cons]
    exact hD.imgBind (h t x) ih

theorem mapM {U a b T α β : Type} [LawfulMonad m] [LawfulMonad n] {f : ι → T → α} {g : T → β} {u : ι → U → a} {v : U → b}
    {k : ι → a → m α} {k' : b → n β}
    (h : ∀ x, R.Rel (Img f g) (fun i => k i (u i x)) (k' (v x))) (l : List U) :
    R.Rel (Img (fun i => List.map (f i)) (List.map g)) (fun i => (l.map (u i)).mapM (k i)) ((l.map v).mapM k') := by
  induction l with
  | nil =>
    simp only [List.map_nil, List.mapM_nil]
    exact R.pure ⟨[], rfl, rfl⟩
  | cons x l ih =>
    simp only [List.map_cons, List.mapM_cons]
    refine hD.imgBind (h x) fun y => ?_
    refine hD.imgBind ih fun ys => ?_
    exact R.pure ⟨y :: ys, rfl, rfl⟩

section

variable [LawfulMonad m] [LawfulMonad n]

theorem muxAll (ifs : List (IfCtx (RelW VR))) (news olds : List (RelW VR)) :
    R.Rel (Lists VR) (fun i => muxAll D (ifs.map (IfCtx.map (RelW.left i))) (news.map (RelW.left i)) (olds.map (RelW.left i)))
      (CircomVm.muxAll D' (ifs.map (IfCtx.map RelW.right)) (news.map RelW.right) (olds.map RelW.right)) := by
  unfold CircomVm.muxAll
  simp only [sharedCond_map]
  cases sharedCond ifs with
  | none => exact R.pure ⟨news, rfl, rfl⟩
  | some c =>
    simp only [Option.map_some, ← List.zip_map']
    simp only [List.zip_map]
    refine hD.mapM (f := fun i => RelW.left i) (g := RelW.right) (k := fun i x => D.cmux (c.left i) x.1 x.2) (k' := fun x => D'.cmux c.right x.1 x.2) (u := fun i => Prod.map (RelW.left i) (RelW.left i)) (v := Prod.map RelW.right RelW.right) ?_ _
    rintro ⟨x, y⟩
    exact R.vals (hD.cmux c.rel x.rel y.rel)

/-- Related memories and states. -/
abbrev MemSt (VR : (ι → V) → V' → Prop) : (ι → List V × St V) → List V' × St V' → Prop :=
  Img (fun i (w : List (RelW VR) × St (RelW VR)) => w.map (List.map (RelW.left i)) (St.map (RelW.left i)))
    (Prod.map (List.map RelW.right) (St.map RelW.right))

theorem store (k start : Nat) (mem : List (RelW VR)) (S : St (RelW VR)) :
    R.Rel (MemSt VR) (fun i => store D k start (mem.map (RelW.left i)) (S.map (RelW.left i)))
      (CircomVm.store D' k start (mem.map RelW.right) (S.map RelW.right)) := by
  unfold CircomVm.store
  refine hD.orFailBind (fun i => St.popN_map _ S k) (St.popN_map _ S k) fun ⟨news, S'⟩ _ => ?_
  refine hD.orFailBind (fun i => readSlice_map _ mem start k) (readSlice_map _ mem start k) fun olds _ => ?_
  simp only [← List.map_reverse]
  refine hD.imgBind (hD.muxAll S.ifs news olds.reverse) fun vals => ?_
  simp only [← List.map_reverse]
  refine hD.orFailBind (fun i => writeSlice_map _ mem start _) (writeSlice_map _ mem start _) fun mem _ => ?_
  exact R.pure ⟨(mem, S'), rfl, rfl⟩

theorem storeSignals (k : Nat) (S : St (RelW VR)) :
    R.Rel (Sts VR) (fun i => opStoreSignals D k (S.map (RelW.left i))) (opStoreSignals D' k (S.map RelW.right)) := by
  unfold opStoreSignals
  refine hD.orFailBind (fun i => St.popIdx_map _ S) (St.popIdx_map _ S) fun ⟨x, S⟩ _ => ?_
  refine hD.imgBind (hD.store k (S.offset + x) S.signals S) fun ⟨mem, S⟩ => ?_
  exact R.pure ⟨{ S with signals := mem }.next, rfl, rfl⟩

theorem storeVars (k : Nat) (S : St (RelW VR)) :
    R.Rel (Sts VR) (fun i => opStoreVars D k (S.map (RelW.left i))) (opStoreVars D' k (S.map RelW.right)) := by
  unfold opStoreVars
  refine hD.orFailBind (fun i => St.popIdx_map _ S) (St.popIdx_map _ S) fun ⟨x, S⟩ _ => ?_
  refine hD.imgBind (hD.store k x S.vars S) fun ⟨mem, S⟩ => ?_
  exact R.pure ⟨{ S with vars := mem }.next, rfl, rfl⟩

/-- Zero as a related value. -/
def zeroW : RelW VR := ⟨_, _, hD.zero⟩

/-- One as a related value. -/
def oneW : RelW VR := ⟨_, _, hD.one⟩

theorem enterFun_left (decl : FunDecl) (args : List (RelW VR)) (k : Nat) (S : St (RelW VR)) (i : ι) :
    enterFun D decl (args.map (RelW.left i)) k (S.map (RelW.left i)) =
      (if args.length ≤ decl.vars then some { S with
          ip := 0
          body := decl.body
          vars := args ++ List.replicate (decl.vars - args.length) hD.zeroW
          sharedRet := []
          fields := [] :: S.fields
          idxs := [] :: S.idxs
          funs := ⟨S.ip, S.returnVals, S.vars, S.body, S.sharedRet⟩ :: S.funs
          returnVals := k } else none).map (St.map (RelW.left i)) := by
  unfold enterFun
  simp only [List.length_map]
  split
  · simp [St.map, FunCtx.map, zeroW, RelW.left]
  · rfl

theorem enterFun_right (decl : FunDecl) (args : List (RelW VR)) (k : Nat) (S : St (RelW VR)) :
    enterFun D' decl (args.map RelW.right) k (S.map RelW.right) =
      (if args.length ≤ decl.vars then some { S with
          ip := 0
          body := decl.body
          vars := args ++ List.replicate (decl.vars - args.length) hD.zeroW
          sharedRet := []
          fields := [] :: S.fields
          idxs := [] :: S.idxs
          funs := ⟨S.ip, S.returnVals, S.vars, S.body, S.sharedRet⟩ :: S.funs
          returnVals := k } else none).map (St.map RelW.right) := by
  unfold enterFun
  simp only [List.length_map]
  split
  · simp [St.map, FunCtx.map, zeroW]
  · rfl

theorem pushVal (w : RelW VR) (S : St (RelW VR)) :
    R.Rel (Sts VR) (fun i => CircomVm.orFail D "stack is empty and you want to push?" ((S.map (RelW.left i)).push (w.left i)) >>=
        fun s => pure s.next)
      (CircomVm.orFail D' "stack is empty and you want to push?" ((S.map RelW.right).push w.right) >>= fun s => pure s.next) := by
  refine hD.orFailBind (fun i => St.push_map _ S w) (St.push_map _ S w) fun S _ => ?_
  exact R.pure ⟨S.next, rfl, rfl⟩

theorem accelSqrt (args : List (RelW VR)) (S : St (RelW VR)) :
    R.Rel (Sts VR) (fun i => accelSqrt D (args.map (RelW.left i)) (S.map (RelW.left i)))
      (CircomVm.accelSqrt D' (args.map RelW.right) (S.map RelW.right)) := by
  rcases args with _ | ⟨x, _ | ⟨y, r⟩⟩
  · exact hD.fail _ _ _
  · exact hD.valsBind (hD.sqrt x.rel) fun w => hD.pushVal w S
  · exact hD.fail _ _ _

theorem call (ctx : Ctx P) (symbol : String) (k : Nat) (S : St (RelW VR)) :
    R.Rel (Sts VR) (fun i => opCall D ctx symbol k (S.map (RelW.left i))) (opCall D' ctx symbol k (S.map RelW.right)) := by
  unfold opCall
  cases ctx.funDecls symbol with
  | none => exact hD.fail _ _ _
  | some decl =>
    simp only [callFun]
    refine hD.orFailBind (fun i => callArgs_map _ _ S) (callArgs_map _ _ S) fun args _ => ?_
    split
    · exact hD.accelSqrt args S
    · simp only [hD.enterFun_left, hD.enterFun_right]
      exact hD.orFail _ _ _ _

/-- The runs of sub-components correspond. -/
def SubRel (R : MonadRel ι m n) (VR : (ι → V) → V' → Prop) (run : TemplateDecl → Nat → List V → m (List V))
    (run' : TemplateDecl → Nat → List V' → n (List V')) : Prop :=
  ∀ decl off (l : List (RelW VR)), R.Rel (Lists VR) (fun i => run decl off (l.map (RelW.left i))) (run' decl off (l.map RelW.right))

variable {run : TemplateDecl → Nat → List V → m (List V)} {run' : TemplateDecl → Nat → List V' → n (List V')}
  (hrun : SubRel R VR run run')
include hrun

theorem createOne (decl : TemplateDecl) (S : St (RelW VR)) (off : Nat) :
    R.Rel (Sts VR) (fun i => createOne run decl (S.map (RelW.left i)) off) (CircomVm.createOne run' decl (S.map RelW.right) off) := by
  unfold CircomVm.createOne
  split
  · refine hD.imgBind (hrun decl off S.signals) fun l => ?_
    exact R.pure ⟨{ S with signals := l, subs := S.subs ++ [⟨decl, off, 0, true⟩] }, rfl, rfl⟩
  · exact R.pure ⟨{ S with subs := S.subs ++ [⟨decl, off, 0, false⟩] }, rfl, rfl⟩

theorem createCmp (ctx : Ctx P) (symbol : String) (k : Nat) (S : St (RelW VR)) :
    R.Rel (Sts VR) (fun i => opCreateCmp D ctx run symbol k (S.map (RelW.left i)))
      (opCreateCmp D' ctx run' symbol k (S.map RelW.right)) := by
  unfold opCreateCmp
  refine hD.orFailBind (fun i => St.popIdx_map _ S) (St.popIdx_map _ S) fun ⟨jump, S⟩ _ => ?_
  refine hD.orFailBind (fun i => St.popIdx_map _ S) (St.popIdx_map _ S) fun ⟨rel, S⟩ _ => ?_
  cases ctx.templDecls symbol with
  | none => exact hD.fail _ _ _
  | some decl =>
    refine hD.imgBind (f := fun i (w : St (RelW VR)) => w.map (RelW.left i)) (g := St.map RelW.right) ?_ fun S => ?_
    · have := hD.foldlM (f := fun i (w : St (RelW VR)) => w.map (RelW.left i)) (g := St.map RelW.right)
        (u := fun _ (x : Nat) => S.offset + rel + x * jump) (v := fun x => S.offset + rel + x * jump)
        (k := fun _ => CircomVm.createOne run decl) (k' := CircomVm.createOne run' decl)
        (fun S x => hD.createOne hrun decl S _) (List.range k) S
      exact this
    · exact R.pure ⟨S.next, rfl, rfl⟩

omit hrun in
theorem outputSubComp (mapped : Bool) (code k : Nat) (S : St (RelW VR)) :
    R.Rel (Sts VR) (fun i => opOutputSubComp D mapped code k (S.map (RelW.left i)))
      (opOutputSubComp D' mapped code k (S.map RelW.right)) := by
  unfold opOutputSubComp
  refine hD.orFailBind (fun i => St.popIdx_map _ S) (St.popIdx_map _ S) fun ⟨sub, S⟩ _ => ?_
  refine hD.orFailBind (fun i => St.popIdx_map _ S) (St.popIdx_map _ S) fun ⟨index, S⟩ _ => ?_
  refine hD.orFailBind (o := S.subs[sub]?) (f := fun _ => id) (g := id) (fun i => Option.map_id_apply.symm)
    Option.map_id_apply.symm fun c _ => ?_
  refine hD.orFailBind (o := signalOffset c mapped code index) (f := fun _ => id) (g := id) (fun i => Option.map_id_apply.symm)
    Option.map_id_apply.symm fun off _ => ?_
  refine hD.orFailBind (fun i => readSlice_map _ S.signals off k) (readSlice_map _ S.signals off k) fun vals _ => ?_
  refine hD.orFailBind (fun i => St.pushAll_map _ S vals) (St.pushAll_map _ S vals) fun S _ => ?_
  exact R.pure ⟨S.next, rfl, rfl⟩

theorem provide (sub : Nat) (c : Comp) (k : Nat) (S : St (RelW VR)) :
    R.Rel (Sts VR) (fun i => provide D run sub c k (S.map (RelW.left i)))
      (CircomVm.provide D' run' sub c k (S.map RelW.right)) := by
  unfold CircomVm.provide
  split
  · split
    · exact hD.fail _ _ _
    · refine hD.imgBind (hrun c.decl c.offset S.signals) fun l => ?_
      exact R.pure ⟨{ S with signals := l, subs := S.subs.set sub { c with provided := c.provided + k, ran := true } }, rfl, rfl⟩
  · exact R.pure ⟨{ S with subs := S.subs.set sub { c with provided := c.provided + k } }, rfl, rfl⟩

theorem inputSubComp (mapped : Bool) (code k : Nat) (S : St (RelW VR)) :
    R.Rel (Sts VR) (fun i => opInputSubComp D run mapped code k (S.map (RelW.left i)))
      (opInputSubComp D' run' mapped code k (S.map RelW.right)) := by
  unfold opInputSubComp
  have h1 : ∀ i, (sharedCond (S.map (RelW.left i)).ifs).isSome = (sharedCond S.ifs).isSome := fun i => by
    simp [St.map, sharedCond_map]
  have h2 : (sharedCond (S.map RelW.right).ifs).isSome = (sharedCond S.ifs).isSome := by simp [St.map, sharedCond_map]
  simp only [h1, h2]
  split
  · exact hD.fail _ _ _
  · refine hD.orFailBind (fun i => St.popIdx_map _ S) (St.popIdx_map _ S) fun ⟨sub, S⟩ _ => ?_
    refine hD.orFailBind (fun i => St.popIdx_map _ S) (St.popIdx_map _ S) fun ⟨index, S⟩ _ => ?_
    refine hD.orFailBind (fun i => St.popN_map _ S k) (St.popN_map _ S k) fun ⟨vals, S⟩ _ => ?_
    refine hD.orFailBind (o := S.subs[sub]?) (f := fun _ => id) (g := id) (fun i => Option.map_id_apply.symm)
      Option.map_id_apply.symm fun c _ => ?_
    refine hD.orFailBind (o := signalOffset c mapped code index) (f := fun _ => id) (g := id) (fun i => Option.map_id_apply.symm)
      Option.map_id_apply.symm fun off _ => ?_
    simp only [Prod.map_fst, ← List.map_reverse]
    refine hD.orFailBind (fun i => writeSlice_map _ S.signals off _) (writeSlice_map _ S.signals off _) fun l _ => ?_
    refine hD.imgBind (hD.provide hrun sub c k { S with signals := l }) fun S => ?_
    exact R.pure ⟨S.next, rfl, rfl⟩

omit hrun

theorem assertOp (S : St (RelW VR)) :
    R.Rel (Sts VR) (fun i => opAssert D (S.map (RelW.left i))) (opAssert D' (S.map RelW.right)) := by
  unfold opAssert
  refine hD.orFailBind (fun i => St.pop_map _ S) (St.pop_map _ S) fun ⟨v, S⟩ _ => ?_
  refine hD.sameBind (hD.isZero true v.rel) fun z => ?_
  cases z with
  | true => exact hD.fail _ _ _
  | false => exact R.pure ⟨S.next, rfl, rfl⟩

theorem pushShared (ifs : List (IfCtx (RelW VR))) (c : RelW VR) :
    R.Rel (Img (fun i (w : List (IfCtx (RelW VR))) => w.map (IfCtx.map (RelW.left i))) (List.map (IfCtx.map RelW.right)))
      (fun i => pushShared D (ifs.map (IfCtx.map (RelW.left i))) (c.left i))
      (CircomVm.pushShared D' (ifs.map (IfCtx.map RelW.right)) c.right) := by
  unfold CircomVm.pushShared
  simp only [sharedCond_map]
  have h1 : ∀ i, ((sharedCond ifs).map (RelW.left i)).getD D.one = ((sharedCond ifs).getD hD.oneW).left i := fun i => by
    cases sharedCond ifs <;> rfl
  have h2 : ((sharedCond ifs).map RelW.right).getD D'.one = ((sharedCond ifs).getD hD.oneW).right := by
    cases sharedCond ifs <;> rfl
  simp only [h1, h2]
  refine hD.valsBind (hD.bin .boolAnd (RelW.rel _) c.rel) fun acc => ?_
  exact R.pure ⟨.shared ((sharedCond ifs).getD hD.oneW) acc c :: ifs, rfl, rfl⟩

theorem branch (jump : Nat) (S : St (RelW VR)) :
    R.Rel (Sts VR) (fun i => opBranch D jump (S.map (RelW.left i))) (opBranch D' jump (S.map RelW.right)) := by
  unfold opBranch
  refine hD.orFailBind (fun i => St.pop_map _ S) (St.pop_map _ S) fun ⟨v, S⟩ _ => ?_
  refine hD.sameBind (hD.isShared v.rel) fun z => ?_
  cases z with
  | true =>
    refine hD.imgBind (hD.pushShared S.ifs v) fun ifs => ?_
    exact R.pure ⟨{ S with ifs := ifs }.next, rfl, rfl⟩
  | false =>
    refine hD.sameBind (hD.isZero false v.rel) fun z => ?_
    exact R.pure ⟨{ S with ifs := .pub :: S.ifs, ip := if z then S.ip + jump else S.ip + 1 }, rfl, rfl⟩

theorem endTruthyBranch (jump : Nat) (S : St (RelW VR)) :
    R.Rel (Sts VR) (fun i => opEndTruthyBranch D jump (S.map (RelW.left i))) (opEndTruthyBranch D' jump (S.map RelW.right)) := by
  obtain ⟨ip, body, vars, sret, off, fields, idxs, ifs, funs, rv, subs, sigs⟩ := S
  rcases ifs with _ | ⟨_ | ⟨l, a, c⟩, r⟩
  · exact hD.fail _ _ _
  · exact R.pure ⟨⟨ip + max 1 jump, body, vars, sret, off, fields, idxs, r, funs, rv, subs, sigs⟩, rfl, rfl⟩
  · simp only [opEndTruthyBranch, St.map, List.map_cons, IfCtx.map, toggle]
    split
    · exact R.pure ⟨⟨ip + 1, body, vars, sret, off, fields, idxs, r, funs, rv, subs, sigs⟩, rfl, rfl⟩
    · refine hD.valsBind (hD.boolNot c.rel) fun nc => ?_
      refine hD.valsBind (hD.bin .boolAnd l.rel nc.rel) fun acc => ?_
      exact R.pure ⟨⟨ip + 1, body, vars, sret, off, fields, idxs, .shared l acc c :: r, funs, rv, subs, sigs⟩, rfl, rfl⟩

theorem endFalsyBranch (S : St (RelW VR)) :
    R.Rel (Sts VR) (fun i => opEndFalsyBranch D (S.map (RelW.left i))) (opEndFalsyBranch D' (S.map RelW.right)) := by
  obtain ⟨ip, body, vars, sret, off, fields, idxs, ifs, funs, rv, subs, sigs⟩ := S
  rcases ifs with _ | ⟨c, r⟩
  · exact hD.fail _ _ _
  · exact R.pure ⟨⟨ip + 1, body, vars, sret, off, fields, idxs, r, funs, rv, subs, sigs⟩, rfl, rfl⟩

theorem guardDivisor (op : BinOp) (ifs : List (IfCtx (RelW VR))) (v : RelW VR) :
    R.Rel VR (fun i => guardDivisor D op (ifs.map (IfCtx.map (RelW.left i))) (v.left i))
      (CircomVm.guardDivisor D' op (ifs.map (IfCtx.map RelW.right)) v.right) := by
  unfold CircomVm.guardDivisor
  simp only [sharedCond_map]
  cases sharedCond ifs with
  | none => cases op <;> exact R.pure v.rel
  | some c =>
    cases op
    case div => exact hD.cmux c.rel v.rel hD.one
    all_goals exact R.pure v.rel

theorem binOp (op : BinOp) (S : St (RelW VR)) :
    R.Rel (Sts VR) (fun i => opBin D op (S.map (RelW.left i))) (opBin D' op (S.map RelW.right)) := by
  unfold opBin
  refine hD.orFailBind (fun i => St.pop_map _ S) (St.pop_map _ S) fun ⟨r, S'⟩ _ => ?_
  refine hD.orFailBind (fun i => St.pop_map _ S') (St.pop_map _ S') fun ⟨l, S'⟩ _ => ?_
  refine hD.valsBind (hD.guardDivisor op S.ifs r) fun r => ?_
  refine hD.valsBind (hD.bin op l.rel r.rel) fun v => ?_
  exact hD.pushVal v S'

theorem negOp (S : St (RelW VR)) :
    R.Rel (Sts VR) (fun i => opNeg D (S.map (RelW.left i))) (opNeg D' (S.map RelW.right)) := by
  unfold opNeg
  refine hD.orFailBind (fun i => St.pop_map _ S) (St.pop_map _ S) fun ⟨r, S⟩ _ => ?_
  refine hD.valsBind (hD.neg r.rel) fun v => ?_
  exact hD.pushVal v S

theorem eqN (k : Nat) (S : St (RelW VR)) :
    R.Rel (Sts VR) (fun i => opEqN D k (S.map (RelW.left i))) (opEqN D' k (S.map RelW.right)) := by
  unfold opEqN
  refine hD.orFailBind (fun i => St.popN_map _ S k) (St.popN_map _ S k) fun ⟨r, S⟩ _ => ?_
  refine hD.orFailBind (fun i => St.popN_map _ S k) (St.popN_map _ S k) fun ⟨l, S⟩ _ => ?_
  simp only [Prod.map_fst, List.zip_map]
  refine hD.imgBind (hD.foldlM (f := fun i => RelW.left i) (g := RelW.right) (k := fun _ => eqStep D) (k' := eqStep D')
    (u := fun i => Prod.map (RelW.left i) (RelW.left i)) (v := Prod.map RelW.right RelW.right) ?_ _ hD.oneW) fun v => ?_
  · rintro acc ⟨x, y⟩
    refine hD.valsBind (hD.bin .eq x.rel y.rel) fun c => ?_
    exact R.vals (hD.bin .boolAnd c.rel acc.rel)
  · exact hD.pushVal v S

theorem idx (f : Nat → Nat → Nat) (S : St (RelW VR)) :
    R.Rel (Sts VR) (fun i => opIdx D f (S.map (RelW.left i))) (opIdx D' f (S.map RelW.right)) := by
  unfold opIdx
  refine hD.orFailBind (fun i => St.popIdx_map _ S) (St.popIdx_map _ S) fun ⟨r, S⟩ _ => ?_
  refine hD.orFailBind (fun i => St.popIdx_map _ S) (St.popIdx_map _ S) fun ⟨l, S⟩ _ => ?_
  refine hD.orFailBind (fun i => St.pushIdx_map _ S (f l r)) (St.pushIdx_map _ S (f l r)) fun S _ => ?_
  exact R.pure ⟨S.next, rfl, rfl⟩

theorem toIndexOp (S : St (RelW VR)) :
    R.Rel (Sts VR) (fun i => opToIndex D (S.map (RelW.left i))) (opToIndex D' (S.map RelW.right)) := by
  unfold opToIndex
  refine hD.orFailBind (fun i => St.pop_map _ S) (St.pop_map _ S) fun ⟨r, S⟩ _ => ?_
  refine hD.sameBind (hD.toIndex r.rel) fun x => ?_
  refine hD.orFailBind (fun i => St.pushIdx_map _ S x) (St.pushIdx_map _ S x) fun S _ => ?_
  exact R.pure ⟨S.next, rfl, rfl⟩

theorem jumpBack (jump : Nat) (S : St (RelW VR)) :
    R.Rel (Sts VR) (fun i => opJumpBack D jump (S.map (RelW.left i))) (opJumpBack D' jump (S.map RelW.right)) := by
  by_cases h : jump ≤ S.ip
  · simp only [opJumpBack, St.map, h, if_true]
    exact R.pure ⟨{ S with ip := S.ip - jump }, rfl, rfl⟩
  · simp only [opJumpBack, St.map, h, if_false]
    exact hD.fail _ _ _

theorem jumpIfFalse (jump : Nat) (S : St (RelW VR)) :
    R.Rel (Sts VR) (fun i => opJumpIfFalse D jump (S.map (RelW.left i))) (opJumpIfFalse D' jump (S.map RelW.right)) := by
  unfold opJumpIfFalse
  refine hD.orFailBind (fun i => St.pop_map _ S) (St.pop_map _ S) fun ⟨r, S⟩ _ => ?_
  refine hD.sameBind (hD.isZero false r.rel) fun z => ?_
  exact R.pure ⟨{ S with ip := if z then S.ip + jump else S.ip + 1 }, rfl, rfl⟩

theorem returnCond (start : RelW VR) (ret : List (RelW VR × List (RelW VR))) :
    R.Rel (Vals VR) (fun i => returnCond D (start.left i) (ret.map (Prod.map (RelW.left i) (List.map (RelW.left i)))))
      (CircomVm.returnCond D' start.right (ret.map (Prod.map RelW.right (List.map RelW.right)))) := by
  refine hD.foldlM (f := fun i => RelW.left i) (g := RelW.right) (k := fun _ => returnStep D) (k' := returnStep D')
    (u := fun i => Prod.map (RelW.left i) (List.map (RelW.left i))) (v := Prod.map RelW.right (List.map RelW.right)) ?_ ret start
  rintro acc ⟨c, l⟩
  refine hD.valsBind (hD.boolNot c.rel) fun nc => ?_
  exact R.vals (hD.bin .boolAnd acc.rel nc.rel)

theorem sumStep (acc : List (RelW VR)) (x : RelW VR × List (RelW VR)) :
    R.Rel (Lists VR) (fun i => sumStep D (acc.map (RelW.left i)) (x.map (RelW.left i) (List.map (RelW.left i))))
      (CircomVm.sumStep D' (acc.map RelW.right) (x.map RelW.right (List.map RelW.right))) := by
  obtain ⟨c, l⟩ := x
  unfold CircomVm.sumStep
  refine hD.imgBind (f := fun i (w : List (RelW VR)) => w.map (RelW.left i)) (g := List.map RelW.right) ?_ fun xs => ?_
  · exact hD.mapM (f := fun i => RelW.left i) (g := RelW.right) (k := fun i v => D.bin .mul (c.left i) v)
      (k' := fun v => D'.bin .mul c.right v) (u := fun i => RelW.left i) (v := RelW.right)
      (fun x => R.vals (hD.bin .mul c.rel x.rel)) l
  · simp only [List.zip_map, List.length_map, ← List.map_drop]
    refine hD.imgBind (f := fun i (w : List (RelW VR)) => w.map (RelW.left i)) (g := List.map RelW.right) ?_ fun r => ?_
    · exact hD.mapM (f := fun i => RelW.left i) (g := RelW.right) (k := fun i (y : V × V) => D.bin .add y.1 y.2)
        (k' := fun y => D'.bin .add y.1 y.2) (u := fun i => Prod.map (RelW.left i) (RelW.left i))
        (v := Prod.map RelW.right RelW.right) (fun x => R.vals (hD.bin .add x.1.rel x.2.rel)) _
    · exact R.pure ⟨r ++ acc.drop xs.length, by simp, by simp⟩

theorem sharedReturn (S : St (RelW VR)) :
    R.Rel (Sts VR) (fun i => sharedReturn D (S.map (RelW.left i))) (CircomVm.sharedReturn D' (S.map RelW.right)) := by
  unfold CircomVm.sharedReturn
  have h1 : ∀ i, List.replicate (S.map (RelW.left i)).returnVals D.zero =
      (List.replicate S.returnVals hD.zeroW).map (RelW.left i) := fun i => by simp [St.map, zeroW, RelW.left]
  have h2 : List.replicate (S.map RelW.right).returnVals D'.zero =
      (List.replicate S.returnVals hD.zeroW).map RelW.right := by simp [St.map, zeroW]
  simp only [h1, h2]
  refine hD.imgBind (f := fun i (w : List (RelW VR)) => w.map (RelW.left i)) (g := List.map RelW.right) ?_ fun acc => ?_
  · exact hD.foldlM (f := fun i (w : List (RelW VR)) => w.map (RelW.left i)) (g := List.map RelW.right)
      (k := fun _ => CircomVm.sumStep D) (k' := CircomVm.sumStep D')
      (u := fun i => Prod.map (RelW.left i) (List.map (RelW.left i))) (v := Prod.map RelW.right (List.map RelW.right))
      (fun acc x => hD.sumStep acc x) S.sharedRet _
  · simp only [St.pushAll_map]
    exact hD.orFail _ _ _ _

theorem returnSharedIfFun (S : St (RelW VR)) :
    R.Rel (Sts VR) (fun i => opReturnSharedIfFun D (S.map (RelW.left i))) (opReturnSharedIfFun D' (S.map RelW.right)) := by
  unfold opReturnSharedIfFun
  refine hD.imgBind (hD.sharedReturn S) fun S => ?_
  simp only [St.leave_map]
  exact hD.orFail _ _ _ _

theorem returnLate (vals : List (RelW VR)) (S : St (RelW VR)) :
    R.Rel (Sts VR) (fun i => returnLate D (vals.map (RelW.left i)) (S.map (RelW.left i)))
      (CircomVm.returnLate D' (vals.map RelW.right) (S.map RelW.right)) := by
  unfold CircomVm.returnLate
  have h1 : ∀ i, (sharedCond (S.map (RelW.left i)).ifs).getD D.one = ((sharedCond S.ifs).getD hD.oneW).left i := fun i => by
    simp only [St.map, sharedCond_map]
    cases sharedCond S.ifs <;> rfl
  have h2 : (sharedCond (S.map RelW.right).ifs).getD D'.one = ((sharedCond S.ifs).getD hD.oneW).right := by
    simp only [St.map, sharedCond_map]
    cases sharedCond S.ifs <;> rfl
  have h3 : ∀ i, (sharedCond (S.map (RelW.left i)).ifs).isSome = (sharedCond S.ifs).isSome := fun i => by
    simp [St.map, sharedCond_map]
  have h4 : (sharedCond (S.map RelW.right).ifs).isSome = (sharedCond S.ifs).isSome := by simp [St.map, sharedCond_map]
  simp only [h1, h2, h3, h4]
  refine hD.imgBind (hD.returnCond _ S.sharedRet) fun c => ?_
  have h5 : ∀ i, { S.map (RelW.left i) with sharedRet := (S.map (RelW.left i)).sharedRet ++ [(c.left i, vals.map (RelW.left i))] } =
      ({ S with sharedRet := S.sharedRet ++ [(c, vals)] } : St (RelW VR)).map (RelW.left i) := fun i => by simp [St.map]
  have h6 : { S.map RelW.right with sharedRet := (S.map RelW.right).sharedRet ++ [(c.right, vals.map RelW.right)] } =
      ({ S with sharedRet := S.sharedRet ++ [(c, vals)] } : St (RelW VR)).map RelW.right := by simp [St.map]
  simp only [h5, h6]
  split
  · exact R.pure ⟨St.next { S with sharedRet := S.sharedRet ++ [(c, vals)] }, rfl, rfl⟩
  · exact hD.returnSharedIfFun _

theorem returnFun (S : St (RelW VR)) :
    R.Rel (Sts VR) (fun i => opReturnFun D (S.map (RelW.left i))) (opReturnFun D' (S.map RelW.right)) := by
  unfold opReturnFun
  have h1 : ∀ i, (S.map (RelW.left i)).returnVals = S.returnVals := fun i => rfl
  have h2 : (S.map RelW.right).returnVals = S.returnVals := rfl
  simp only [h1, h2]
  split
  · simp only [returnFunOne, returnsLate_map, returnOne_map]
    split
    · refine hD.orFailBind (fun i => St.pop_map _ S) (St.pop_map _ S) fun ⟨r, S⟩ _ => ?_
      exact hD.returnLate [r] S
    · exact hD.orFail _ _ _ _
  · simp only [returnFunMany, returnsLate_map]
    refine hD.orFailBind (fun i => St.popIdx_map _ S) (St.popIdx_map _ S) fun ⟨r, S'⟩ _ => ?_
    have h3 : ∀ i, padVars D (r + S.returnVals) (S'.map (RelW.left i)).vars =
        (S'.vars ++ List.replicate (r + S.returnVals - S'.vars.length) hD.zeroW).map (RelW.left i) := fun i => by
      simp [padVars, St.map, zeroW, RelW.left]
    have h4 : padVars D' (r + S.returnVals) (S'.map RelW.right).vars =
        (S'.vars ++ List.replicate (r + S.returnVals - S'.vars.length) hD.zeroW).map RelW.right := by
      simp [padVars, St.map, zeroW]
    simp only [Prod.map_fst, Prod.map_snd, id_eq, h1, h2, h3, h4]
    refine hD.orFailBind (fun i => readSlice_map _ _ r S.returnVals) (readSlice_map _ _ r S.returnVals) fun vals _ => ?_
    split
    · exact hD.returnLate vals { S' with vars := S'.vars ++ List.replicate (r + S.returnVals - S'.vars.length) hD.zeroW }
    · simp only [returnMany_map]
      exact hD.orFail _ _ _ _

theorem logOp (ctx : Ctx P) (S : St (RelW VR)) :
    R.Rel (Sts VR) (fun i => opLog D ctx (S.map (RelW.left i))) (opLog D' ctx (S.map RelW.right)) := by
  unfold opLog
  refine hD.orFailBind (fun i => St.pop_map _ S) (St.pop_map _ S) fun ⟨r, S⟩ _ => ?_
  refine R.bind (hD.log ctx.leakyLogs r.rel) fun _ _ _ => ?_
  exact R.pure ⟨S.next, rfl, rfl⟩

theorem pushConstant (ctx : Ctx P) (k : Nat) (S : St (RelW VR)) :
    R.Rel (Sts VR) (fun i => opPushConstant D ctx k (S.map (RelW.left i))) (opPushConstant D' ctx k (S.map RelW.right)) := by
  unfold opPushConstant
  refine hD.orFailBind (o := ctx.constants[k]?) (f := fun _ => id) (g := id) (fun i => Option.map_id_apply.symm)
    Option.map_id_apply.symm fun c _ => ?_
  exact hD.pushVal ⟨_, _, hD.ofPub c⟩ S

theorem pushIndex (k : Nat) (S : St (RelW VR)) :
    R.Rel (Sts VR) (fun i => opPushIndex D k (S.map (RelW.left i))) (opPushIndex D' k (S.map RelW.right)) := by
  unfold opPushIndex
  refine hD.orFailBind (fun i => St.pushIdx_map _ S k) (St.pushIdx_map _ S k) fun S _ => ?_
  exact R.pure ⟨S.next, rfl, rfl⟩

/-- One instruction. -/
theorem step (ctx : Ctx P) (hrun : SubRel R VR run run') (op : OpCode) (S : St (RelW VR)) :
    R.Rel (Sts VR) (fun i => step D ctx run op (S.map (RelW.left i))) (CircomVm.step D' ctx run' op (S.map RelW.right)) := by
  cases op with
  | pushConstant k => exact hD.pushConstant ctx k S
  | pushIndex k => exact hD.pushIndex k S
  | loadSignals k => exact hD.loadSignals k S
  | storeSignals k => exact hD.storeSignals k S
  | loadVars k => exact hD.loadVars k S
  | storeVars k => exact hD.storeVars k S
  | outputSubComp b c k => exact hD.outputSubComp b c k S
  | inputSubComp b c k => exact hD.inputSubComp hrun b c k S
  | createCmp y k => exact hD.createCmp hrun ctx y k S
  | call y k => exact hD.call ctx y k S
  | ret => exact R.pure ⟨S, rfl, rfl⟩
  | returnFun => exact hD.returnFun S
  | returnSharedIfFun => exact hD.returnSharedIfFun S
  | assert _ => exact hD.assertOp S
  | branch j => exact hD.branch j S
  | endTruthyBranch j => exact hD.endTruthyBranch j S
  | endFalsyBranch => exact hD.endFalsyBranch S
  | bin op => exact hD.binOp op S
  | neg => exact hD.negOp S
  | eqN k => exact hD.eqN k S
  | mulIndex => exact hD.idx _ S
  | addIndex => exact hD.idx _ S
  | toIndex => exact hD.toIndexOp S
  | jumpBack j => exact hD.jumpBack j S
  | jumpIfFalse j => exact hD.jumpIfFalse j S
  | log => exact hD.logOp ctx S
  | logString k =>
    simp only [CircomVm.step]
    split
    · exact hD.fail _ _ _
    · exact R.pure ⟨S.next, rfl, rfl⟩
  | logFlush _ => exact R.pure ⟨S.next, rfl, rfl⟩

/-- The two lists an accelerator returns. -/
abbrev TwoLists (VR : (ι → V) → V' → Prop) : (ι → List V × List V) → List V' × List V' → Prop :=
  Img (fun i (w : List (RelW VR) × List (RelW VR)) => w.map (List.map (RelW.left i)) (List.map (RelW.left i)))
    (Prod.map (List.map RelW.right) (List.map RelW.right))

theorem runAccel (decl : TemplateDecl) (args : List (RelW VR)) (a : Accel) :
    R.Rel (TwoLists VR) (fun i => runAccel D decl (args.map (RelW.left i)) a)
      (CircomVm.runAccel D' decl (args.map RelW.right) a) := by
  cases a with
  | num2bits =>
    rcases args with _ | ⟨x, _ | ⟨y, r⟩⟩
    · exact hD.fail _ _ _
    · refine hD.imgBind (R.lists (hD.num2bits _ x.rel)) fun l => ?_
      exact R.pure ⟨(l, []), rfl, rfl⟩
    · exact hD.fail _ _ _
  | addbits =>
    simp only [CircomVm.runAccel, accelAddbits, List.length_map]
    split
    · exact hD.fail _ _ _
    · simp only [← List.map_take, ← List.map_drop]
      refine R.bind (hD.addbits (cols_iff.mpr ⟨_, rfl, rfl⟩) (cols_iff.mpr ⟨_, rfl, rfl⟩)) ?_
      rintro a b ⟨h1, h2⟩
      obtain ⟨l, h3, h4⟩ := cols_iff.mp h1
      refine R.pure ⟨(l, [⟨_, _, h2⟩]), ?_, ?_⟩
      · funext i
        rw [congrFun h3 i]
        rfl
      · rw [h4]
        rfl
  | isZero =>
    rcases args with _ | ⟨x, _ | ⟨y, r⟩⟩
    · exact hD.fail _ _ _
    · refine hD.valsBind (hD.bin .eq x.rel hD.zero) fun z => ?_
      refine hD.valsBind (hD.bin .add x.rel z.rel) fun y => ?_
      refine hD.valsBind (hD.bin .div hD.one y.rel) fun inv => ?_
      refine hD.valsBind (hD.bin .sub inv.rel z.rel) fun h => ?_
      exact R.pure ⟨([z], [h]), rfl, rfl⟩
    · exact hD.fail _ _ _
  | poseidon2 => exact hD.fail _ _ _

theorem accelerate (decl : TemplateDecl) (off : Nat) (l : List (RelW VR)) (a : Accel) :
    R.Rel (Lists VR) (fun i => accelerate D decl off (l.map (RelW.left i)) a)
      (CircomVm.accelerate D' decl off (l.map RelW.right) a) := by
  unfold CircomVm.accelerate
  refine hD.orFailBind (fun i => readSlice_map _ l (off + decl.outputSignals) decl.inputSignals)
    (readSlice_map _ l (off + decl.outputSignals) decl.inputSignals) fun inputs _ => ?_
  refine hD.imgBind (hD.runAccel decl inputs a) fun ⟨o, im⟩ => ?_
  simp only [Prod.map_fst, Prod.map_snd, List.length_map]
  split
  · exact hD.fail _ _ _
  · refine hD.orFailBind (fun i => writeSlice_map _ l off o) (writeSlice_map _ l off o) fun l _ => ?_
    simp only [writeSlice_map]
    exact hD.orFail _ _ _ _

theorem runComp (ctx : Ctx P) {lp : St V → m (List V)} {lp' : St V' → n (List V')}
    (h : ∀ S : St (RelW VR), R.Rel (Lists VR) (fun i => lp (S.map (RelW.left i))) (lp' (S.map RelW.right))) :
    SubRel R VR (runComp D ctx lp) (CircomVm.runComp D' ctx lp') := by
  intro decl off l
  unfold CircomVm.runComp
  cases accelOf ctx decl with
  | some a => exact hD.accelerate decl off l a
  | none =>
    have h1 : ∀ i, St.init D decl off (l.map (RelW.left i)) =
        St.map (RelW.left i) ⟨0, decl.body, List.replicate decl.vars hD.zeroW, [], off, [[]], [[]], [], [], 0, [], l⟩ := fun i => by
      simp [St.init, St.map, zeroW, RelW.left]
    have h2 : St.init D' decl off (l.map RelW.right) =
        St.map RelW.right ⟨0, decl.body, List.replicate decl.vars hD.zeroW, [], off, [[]], [[]], [], [], 0, [], l⟩ := by
      simp [St.init, St.map, zeroW]
    simp only [h1, h2]
    exact h _

theorem loop (ctx : Ctx P) {fuel fuel' : Nat} (hf : fuel' ≤ fuel) (S : St (RelW VR)) :
    R.Rel (Lists VR) (fun i => loop D ctx fuel (S.map (RelW.left i))) (CircomVm.loop D' ctx fuel' (S.map RelW.right)) := by
  induction fuel' generalizing S fuel with
  | zero => exact hD.fail _ _ _
  | succ k ih =>
    obtain ⟨fuel, rfl⟩ : ∃ f, fuel = f + 1 := ⟨fuel - 1, by omega⟩
    replace ih := fun S => ih (fuel := fuel) (by omega) S
    simp only [CircomVm.loop]
    refine hD.orFailBind (o := S.body[S.ip]?) (f := fun _ => id) (g := id) (fun i => Option.map_id_apply.symm)
      Option.map_id_apply.symm fun op _ => ?_
    simp only [id_eq]
    split
    · exact R.pure ⟨S.signals, rfl, rfl⟩
    · exact hD.imgBind (hD.step ctx (hD.runComp ctx ih) op S) fun S => ih S

theorem setInputs (prog : Program) (l : List (RelW VR)) (inputs : List (String × RelW VR)) :
    R.Rel (Lists VR) (fun i => setInputs D prog (l.map (RelW.left i)) (inputs.map (Prod.map id (RelW.left i))))
      (CircomVm.setInputs D' prog (l.map RelW.right) (inputs.map (Prod.map id RelW.right))) := by
  unfold CircomVm.setInputs
  refine hD.imgBind (f := fun i (w : List (RelW VR) × List (String × RelW VR)) =>
      w.map (List.map (RelW.left i)) (List.map (Prod.map id (RelW.left i))))
    (g := Prod.map (List.map RelW.right) (List.map (Prod.map id RelW.right))) ?_ fun w => ?_
  · have := hD.foldlM (f := fun i (w : List (RelW VR) × List (String × RelW VR)) =>
        w.map (List.map (RelW.left i)) (List.map (Prod.map id (RelW.left i))))
      (g := Prod.map (List.map RelW.right) (List.map (Prod.map id RelW.right))) (k := fun _ => setInput D)
      (k' := setInput D') (u := fun _ => id) (v := id) ?_ (prog.mainInputList.flatMap inputNames) (l, inputs)
    · simpa using this
    · rintro ⟨l, inputs⟩ x
      simp only [setInput, Prod.map_fst, Prod.map_snd, removeKey_map, id_eq]
      cases removeKey x.1 inputs with
      | none => exact hD.fail _ _ _
      | some r =>
        refine hD.orFailBind (fun i => writeSlice_map _ l x.2 [r.1]) (writeSlice_map _ l x.2 [r.1]) fun l _ => ?_
        exact R.pure ⟨(l, r.2), rfl, rfl⟩
  · exact R.pure ⟨w.1, rfl, rfl⟩

theorem setFlatInputs (prog : Program) (l inputs : List (RelW VR)) :
    R.Rel (Lists VR) (fun i => setFlatInputs D prog (l.map (RelW.left i)) (inputs.map (RelW.left i)))
      (CircomVm.setFlatInputs D' prog (l.map RelW.right) (inputs.map RelW.right)) := by
  simp only [CircomVm.setFlatInputs, List.length_map]
  split
  · exact hD.fail _ _ _
  · simp only [writeSlice_map]
    exact hD.orFail _ _ _ _

theorem initSignals (prog : Program) :
    R.Rel (Lists VR) (fun _ => initSignals D prog) (CircomVm.initSignals D' prog) := by
  have h1 : ∀ i, writeSlice (List.replicate prog.amountSignals D.zero) 0 [D.one] =
      (writeSlice (List.replicate prog.amountSignals hD.zeroW) 0 [hD.oneW]).map (List.map (RelW.left i)) := fun i => by
    rw [← writeSlice_map]
    simp [zeroW, oneW, RelW.left]
  have h2 : writeSlice (List.replicate prog.amountSignals D'.zero) 0 [D'.one] =
      (writeSlice (List.replicate prog.amountSignals hD.zeroW) 0 [hD.oneW]).map (List.map RelW.right) := by
    rw [← writeSlice_map]
    simp [zeroW, oneW]
  have := hD.orFail "index out of bounds" (writeSlice (List.replicate prog.amountSignals hD.zeroW) 0 [hD.oneW])
    (fun i => List.map (RelW.left i)) (List.map RelW.right)
  unfold CircomVm.initSignals
  rw [h2]
  have e : (fun _ : ι => CircomVm.orFail D "index out of bounds" (writeSlice (List.replicate prog.amountSignals D.zero) 0 [D.one])) =
      fun i => CircomVm.orFail D "index out of bounds"
        ((writeSlice (List.replicate prog.amountSignals hD.zeroW) 0 [hD.oneW]).map (List.map (RelW.left i))) := by
    funext i
    rw [h1 i]
  rw [e]
  exact this

theorem callMain (prog : Program) (ctx : Ctx P) {fuel fuel' : Nat} (hf : fuel' ≤ fuel) (l : List (RelW VR)) :
    R.Rel (Lists VR) (fun i => callMain D prog ctx fuel (l.map (RelW.left i)))
      (CircomVm.callMain D' prog ctx fuel' (l.map RelW.right)) := by
  unfold CircomVm.callMain
  cases ctx.templDecls prog.main with
  | none => exact hD.fail _ _ _
  | some decl => exact hD.runComp ctx (hD.loop ctx hf) decl 1 l

/-- What the parties get, and what the single computation gets: the public part is the same, the witness is shared. -/
def Finished (AR : (ι → A) → A' → Prop) (a : ι → List P × List A) (b : List P × List A') : Prop :=
  (∀ i, (a i).1 = b.1) ∧ Cols AR (fun i => (a i).2) b.2

theorem finish (prog : Program) (pi : Nat) (l : List (RelW VR)) :
    R.Rel (Finished AR) (fun i => finish D prog pi (l.map (RelW.left i))) (CircomVm.finish D' prog pi (l.map RelW.right)) := by
  simp only [CircomVm.finish]
  split
  · exact hD.fail _ _ _
  · refine R.bind (Q := Same) ?_ ?_
    · have := hD.mapM (U := Nat) (f := fun _ => id) (g := id) (u := fun _ => id) (v := id)
        (k := fun i k => CircomVm.orFail D "index out of bounds" (l.map (RelW.left i))[k]? >>= fun v => D.openV v)
        (k' := fun k => CircomVm.orFail D' "index out of bounds" (l.map RelW.right)[k]? >>= fun v => D'.openV v) ?_
        (prog.signalToWitness.take (prog.mainOutputs + pi + 1))
      · simp only [List.map_id] at this
        refine R.mono this ?_
        rintro a b ⟨t, rfl, rfl⟩
        rfl
      · intro x
        simp only [id_eq, List.getElem?_map]
        refine hD.orFailBind (fun _ => rfl) rfl fun w _ => ?_
        refine R.mono (hD.openV w.rel) ?_
        rintro a b rfl
        exact ⟨b, rfl, rfl⟩
    · rintro _ pub rfl
      refine R.bind (Q := Cols AR) ?_ ?_
      · have := hD.mapM (U := Nat) (f := fun i => RelW.left i) (g := RelW.right) (u := fun _ => id) (v := id)
          (k := fun i k => CircomVm.orFail D "index out of bounds" (l.map (RelW.left i))[k]? >>= fun v => D.toShare v)
          (k' := fun k => CircomVm.orFail D' "index out of bounds" (l.map RelW.right)[k]? >>= fun v => D'.toShare v)
          (T := RelW AR) ?_
          (prog.signalToWitness.drop (prog.mainOutputs + pi + 1))
        · simp only [List.map_id] at this
          exact R.mono this fun a b h => cols_iff.mpr h
        · intro x
          simp only [id_eq, List.getElem?_map]
          refine hD.orFailBind (fun _ => rfl) rfl fun w _ => ?_
          exact R.vals (hD.toShare w.rel)
      · intro a b h
        exact R.pure ⟨fun _ => rfl, h⟩

/-- The whole witness extension. -/
theorem runMap (prog : Program) (ctx : Ctx P) (config : List Bool) {fuel fuel' : Nat} (hf : fuel' ≤ fuel) (inputs : List (String × RelW VR)) (pi : Nat) :
    R.Rel (Finished AR) (fun i => CircomVm.run D prog ctx config fuel (inputs.map (Prod.map id (RelW.left i))) pi)
      (CircomVm.run D' prog ctx config fuel' (inputs.map (Prod.map id RelW.right)) pi) := by
  unfold CircomVm.run
  refine R.bind (hD.compareConfig config) fun _ _ _ => ?_
  refine hD.imgBind (hD.initSignals prog) fun l => ?_
  refine hD.imgBind (hD.setInputs prog l inputs) fun l => ?_
  refine hD.imgBind (hD.callMain prog ctx hf l) fun l => ?_
  exact hD.finish prog pi l

theorem runFlatMap (prog : Program) (ctx : Ctx P) {fuel fuel' : Nat} (hf : fuel' ≤ fuel) (inputs : List (RelW VR)) (pi : Nat) :
    R.Rel (Finished AR) (fun i => runFlat D prog ctx fuel (inputs.map (RelW.left i)) pi)
      (CircomVm.runFlat D' prog ctx fuel' (inputs.map RelW.right) pi) := by
  unfold CircomVm.runFlat
  refine hD.imgBind (hD.initSignals prog) fun l => ?_
  refine hD.imgBind (hD.setFlatInputs prog l inputs) fun l => ?_
  refine hD.imgBind (hD.callMain prog ctx hf l) fun l => ?_
  exact hD.finish prog pi l

end

end DriverRel

end

end Verif.CircomVm
