import Verif.CircomVm.Source
import Verif.CircomVm.VmRel

/-!
# A semantics of compiled circom code

`Big` is a big-step semantics of `Stmt` without stacks and jumps.  `exec_sound` and `exec_complete` relate it to the VM.
-/

namespace Verif.CircomVm

/-- What statements read and write. -/
structure Env (V : Type) where
  vars : List V
  signals : List V
  subs : List Comp
  ifs : List (IfCtx V)
  offset : Nat

namespace St

variable {V : Type}

def env (s : St V) : Env V := ⟨s.vars, s.signals, s.subs, s.ifs, s.offset⟩

/-- After a statement with `k` instructions. -/
def after (s : St V) (k : Nat) (e : Env V) : St V :=
  { s with ip := s.ip + k, vars := e.vars, signals := e.signals, subs := e.subs, ifs := e.ifs, offset := e.offset }

/-- There is a frame. -/
def Framed (s : St V) : Prop := (∃ f r, s.fields = f :: r) ∧ ∃ f r, s.idxs = f :: r

/-- After an expression with `k` instructions. -/
def put (s : St V) (k : Nat) : (t : Ty) → t.Val V → St V
  | .idx, (v : Nat) => { s with
      ip := s.ip + k
      idxs := match s.idxs with | f :: r => (v :: f) :: r | [] => [] }
  | .fld _, (v : List V) => { s with
      ip := s.ip + k
      fields := match s.fields with | f :: r => (v.reverse ++ f) :: r | [] => [] }

theorem put_env (s : St V) (k : Nat) (t : Ty) (v : t.Val V) : (s.put k t v).env = s.env := by cases t <;> rfl
theorem put_body (s : St V) (k : Nat) (t : Ty) (v : t.Val V) : (s.put k t v).body = s.body := by cases t <;> rfl
theorem put_ip (s : St V) (k : Nat) (t : Ty) (v : t.Val V) : (s.put k t v).ip = s.ip + k := by cases t <;> rfl

theorem Framed.put {s : St V} (h : s.Framed) (k : Nat) (t : Ty) (v : t.Val V) : (s.put k t v).Framed := by
  obtain ⟨⟨f, r, hf⟩, g, q, hg⟩ := h
  cases t with
  | idx => exact ⟨⟨f, r, hf⟩, (v : Nat) :: g, q, by simp only [St.put, hg]⟩
  | fld n => exact ⟨⟨List.reverse v ++ f, r, by simp only [St.put, hf]⟩, g, q, hg⟩

theorem Framed.after {s : St V} (h : s.Framed) (k : Nat) (e : Env V) : (s.after k e).Framed := h

theorem after_env (s : St V) (k : Nat) (e : Env V) : (s.after k e).env = e := rfl

theorem after_after (s : St V) (k k' : Nat) (e e' : Env V) : (s.after k e).after k' e' = s.after (k + k') e' := by
  simp [after, Nat.add_assoc]

end St

/-- The instructions at a position. -/
def CodeAt (body : List OpCode) (ip : Nat) (code : List OpCode) : Prop := ∀ i, i < code.length → body[ip + i]? = code[i]?

namespace CodeAt

variable {body : List OpCode} {ip : Nat} {code code' : List OpCode} {op : OpCode}

theorem head (h : CodeAt body ip (op :: code)) : body[ip]? = some op := by simpa using h 0 (by simp)

theorem tail (h : CodeAt body ip (op :: code)) : CodeAt body (ip + 1) code := fun i hi => by
  have := h (i + 1) (by simpa using hi)
  rw [show ip + 1 + i = ip + (i + 1) by omega, this, List.getElem?_cons_succ]

theorem left (h : CodeAt body ip (code ++ code')) : CodeAt body ip code := fun i hi => by
  rw [h i (by simp; omega), List.getElem?_append_left hi]

theorem right (h : CodeAt body ip (code ++ code')) : CodeAt body (ip + code.length) code' := fun i hi => by
  rw [Nat.add_assoc, h _ (by simp; omega), List.getElem?_append_right (by omega)]
  congr 1
  omega

theorem of_append (l code r : List OpCode) : CodeAt (l ++ code ++ r) l.length code := fun i hi => by
  rw [List.append_assoc, List.getElem?_append_right (by omega), List.getElem?_append_left (by omega)]
  congr 1
  omega

end CodeAt

variable {V P A : Type}

section Eval

variable (D : Driver (Except Err) V P A) (ctx : Ctx P)

/-- A binary operation on two values. -/
def binVal (op : BinOp) (ifs : List (IfCtx V)) : List V → List V → Except Err (List V)
  | [x], [y] => do
    let y ← guardDivisor D op ifs y
    let v ← D.bin op x y
    pure [v]
  | _, _ => D.fail (.panic "stack frame is empty?")

def negVal : List V → Except Err (List V)
  | [x] => do
    let v ← D.neg x
    pure [v]
  | _ => D.fail (.panic "stack frame is empty?")

def idxVal : List V → Except Err Nat
  | [x] => D.toIndex x
  | _ => D.fail (.panic "stack frame is empty?")

/-- The outputs of a sub-component. -/
def outVal (mapped : Bool) (code n index sub : Nat) (env : Env V) : Except Err (List V) := do
  let c ← orFail D "index out of bounds" env.subs[sub]?
  let off ← orFail D "index out of bounds" (signalOffset c mapped code index)
  orFail D "range end index out of range" (readSlice env.signals off n)

/-- The value of an expression. -/
def eval (env : Env V) : {t : Ty} → Expr t → Except Err (t.Val V)
  | _, .const k => do
    let c ← orFail D "index out of bounds" ctx.constants[k]?
    pure ([D.ofPub c] : List V)
  | _, .lit k => pure (k : Nat)
  | _, .vars n loc => do
    let k ← eval env loc
    orFail D "range end index out of range" (readSlice env.vars k n)
  | _, .signals n loc => do
    let k ← eval env loc
    orFail D "range end index out of range" (readSlice env.signals (Nat.add env.offset k) n)
  | _, .output mapped code n loc cmp => do
    let k ← eval env loc
    let sub ← eval env cmp
    outVal D mapped code n k sub env
  | _, .bin op a b => do
    let x ← eval env a
    let y ← eval env b
    binVal D op env.ifs x y
  | _, .neg a => do
    let x ← eval env a
    negVal D x
  | _, .eq _ a b => do
    let x ← eval env a
    let y ← eval env b
    let v ← (List.zip (List.reverse x) (List.reverse y)).foldlM (eqStep D) D.one
    pure ([v] : List V)
  | _, .toIndex a => do
    let x ← eval env a
    idxVal D x
  | _, .add a b => do
    let x ← eval env a
    let y ← eval env b
    pure (Nat.add x y)
  | _, .mul a b => do
    let x ← eval env a
    let y ← eval env b
    pure (Nat.mul x y)

/-- The memory after an assignment. -/
def assign (ifs : List (IfCtx V)) (mem : List V) (start : Nat) (vs : List V) : Except Err (List V) := do
  let olds ← orFail D "range end index out of range" (readSlice mem start vs.length)
  let vals ← muxAll D ifs vs.reverse olds.reverse
  orFail D "range end index out of range" (writeSlice mem start vals.reverse)

end Eval

section

variable {D : Driver (Except Err) V P A} {ctx : Ctx P} (hf : ∀ {α : Type} e, D.fail (α := α) e = .error e)

include hf

theorem orFail_ok {α : Type} {msg : String} {o : Option α} {a : α} : orFail D msg o = .ok a ↔ o = some a := by
  cases o with
  | none => simp [orFail, hf]
  | some b => simp [orFail, pure, Except.pure]

theorem binVal_ok {op : BinOp} {ifs : List (IfCtx V)} {x y v : List V} (h : binVal D op ifs x y = .ok v) :
    ∃ a b c w, x = [a] ∧ y = [b] ∧ guardDivisor D op ifs b = .ok c ∧ D.bin op a c = .ok w ∧ v = [w] := by
  unfold binVal at h
  split at h
  · obtain ⟨c, h1, h⟩ := bind_ok h
    obtain ⟨w, h2, h⟩ := bind_ok h
    obtain rfl := ok_inj.mp h
    exact ⟨_, _, c, w, rfl, rfl, h1, h2, rfl⟩
  · rw [hf] at h; cases h

theorem negVal_ok {x v : List V} (h : negVal D x = .ok v) : ∃ a w, x = [a] ∧ D.neg a = .ok w ∧ v = [w] := by
  unfold negVal at h
  split at h
  · obtain ⟨w, h2, h⟩ := bind_ok h
    obtain rfl := ok_inj.mp h
    exact ⟨_, w, rfl, h2, rfl⟩
  · rw [hf] at h; cases h

theorem idxVal_ok {x : List V} {v : Nat} (h : idxVal D x = .ok v) : ∃ a, x = [a] ∧ D.toIndex a = .ok v := by
  unfold idxVal at h
  split at h
  · exact ⟨_, rfl, h⟩
  · rw [hf] at h; cases h

theorem eval_length {env : Env V} {n : Nat} (e : Expr (.fld n)) {v : List V} (h : eval D ctx env e = .ok v) :
    v.length = n := by
  have hr : ∀ {l v : List V} {k n : Nat}, readSlice l k n = some v → v.length = n := by
    intro l v k n h
    simp only [readSlice] at h
    split at h
    · obtain rfl := Option.some.inj h
      simp; omega
    · cases h
  cases e with
  | const k =>
    obtain ⟨c, -, h⟩ := bind_ok h
    obtain rfl := ok_inj.mp h
    rfl
  | vars n loc =>
    obtain ⟨c, -, h⟩ := bind_ok h
    exact hr ((orFail_ok hf).mp h)
  | signals n loc =>
    obtain ⟨c, -, h⟩ := bind_ok h
    exact hr ((orFail_ok hf).mp h)
  | output mapped code n loc cmp =>
    obtain ⟨c, -, h⟩ := bind_ok h
    obtain ⟨c, -, h⟩ := bind_ok h
    obtain ⟨c, -, h⟩ := bind_ok h
    obtain ⟨c, -, h⟩ := bind_ok h
    exact hr ((orFail_ok hf).mp h)
  | bin op a b =>
    obtain ⟨x, -, h⟩ := bind_ok h
    obtain ⟨y, -, h⟩ := bind_ok h
    obtain ⟨_, _, _, _, -, -, -, -, rfl⟩ := binVal_ok hf h
    rfl
  | neg a =>
    obtain ⟨x, -, h⟩ := bind_ok h
    obtain ⟨_, _, -, -, rfl⟩ := negVal_ok hf h
    rfl
  | eq n a b =>
    obtain ⟨x, -, h⟩ := bind_ok h
    obtain ⟨y, -, h⟩ := bind_ok h
    obtain ⟨v, -, h⟩ := bind_ok h
    obtain rfl := ok_inj.mp h
    rfl

end

theorem Except.bind_ok_iff {α β : Type} {x : Except Err α} {f : α → Except Err β} {b : β} :
    x >>= f = .ok b ↔ ∃ a, x = .ok a ∧ f a = .ok b :=
  ⟨bind_ok, fun ⟨a, h1, h2⟩ => by rw [h1]; exact h2⟩

theorem Except.pure_ok_iff {α : Type} {a b : α} : (pure a : Except Err α) = .ok b ↔ a = b := ok_inj

section

variable {D : Driver (Except Err) V P A} {ctx : Ctx P} {ok : List (IfCtx V) → Bool}
  (hf : ∀ {α : Type} e, D.fail (α := α) e = .error e)

include hf

/-- One instruction of the loop. -/
theorem loopC_step {n : Nat} {s : St V} {r : List V} {op : OpCode} (h : s.body[s.ip]? = some op) (hne : op ≠ .ret) :
    loopC D ok ctx n s = .ok r ↔ ∃ m s', n = m + 1 ∧ guard D ok s op = .ok () ∧
      step D ctx (runComp D ctx (loopC D ok ctx m)) op s = .ok s' ∧ loopC D ok ctx m s' = .ok r := by
  cases n with
  | zero => simp [loopC, hf]
  | succ n =>
    simp only [loopC, h, Except.bind_ok_iff, orFail_ok hf]
    constructor
    · rintro ⟨_, ho, h⟩
      obtain rfl := Option.some.inj ho
      rw [if_neg hne] at h
      obtain ⟨u, h1, h⟩ := bind_ok h
      obtain ⟨s', h2, h⟩ := bind_ok h
      exact ⟨n, s', rfl, h1, h2, h⟩
    · rintro ⟨m, s', hm, h1, h2, h3⟩
      obtain rfl : n = m := by omega
      refine ⟨_, rfl, ?_⟩
      rw [if_neg hne]
      exact Except.bind_ok_iff.mpr ⟨(), h1, Except.bind_ok_iff.mpr ⟨s', h2, h3⟩⟩

/-- An instruction that is not guarded, and whose effect is known. -/
theorem loopC_simple {n : Nat} {s : St V} {r : List V} {op : OpCode} {α : Type} {x : Except Err α} {g : α → St V}
    (h : s.body[s.ip]? = some op) (hne : op ≠ .ret) (hg : guard D ok s op = .ok ())
    (hs : ∀ m, step D ctx (runComp D ctx (loopC D ok ctx m)) op s = x >>= fun v => .ok (g v)) :
    loopC D ok ctx n s = .ok r ↔ ∃ v m, n = m + 1 ∧ x = .ok v ∧ loopC D ok ctx m (g v) = .ok r := by
  rw [loopC_step hf h hne]
  constructor
  · rintro ⟨m, s', rfl, -, h1, h2⟩
    rw [hs] at h1
    obtain ⟨v, hv, h1⟩ := bind_ok h1
    obtain rfl := ok_inj.mp h1
    exact ⟨v, m, rfl, hv, h2⟩
  · rintro ⟨v, m, rfl, hv, h2⟩
    exact ⟨m, g v, rfl, hg, by rw [hs, hv]; rfl, h2⟩

omit hf in
theorem orFail_bind {α β : Type} (msg : String) (o : Option α) (f : α → Except Err β) (a : α) (h : o = some a) :
    orFail D msg o >>= f = f a := by rw [h]; rfl

/-- The claim about an expression. -/
abbrev ExprOk (D : Driver (Except Err) V P A) (ctx : Ctx P) (ok : List (IfCtx V) → Bool) {t : Ty} (e : Expr t) : Prop :=
  ∀ {n : Nat} {s : St V} {r : List V}, s.Framed → CodeAt s.body s.ip e.code → (loopC D ok ctx n s = .ok r ↔
    ∃ v m, n = m + e.code.length ∧ eval D ctx s.env e = .ok v ∧ loopC D ok ctx m (s.put e.code.length t v) = .ok r)

theorem loopC_unary {t t' : Ty} {a : Expr t} {op : OpCode} {F : t.Val V → Except Err (t'.Val V)} (ha : ExprOk D ctx ok a)
    {n : Nat} {s : St V} {r : List V} (hfr : s.Framed) (hc : CodeAt s.body s.ip (a.code ++ [op])) (hne : op ≠ .ret)
    (hg : ∀ s, guard D ok s op = .ok ())
    (hs : ∀ v, eval D ctx s.env a = .ok v → ∀ m, step D ctx (runComp D ctx (loopC D ok ctx m)) op (s.put a.code.length t v) =
      F v >>= fun w => .ok (s.put (a.code.length + 1) t' w)) :
    loopC D ok ctx n s = .ok r ↔ ∃ v m, n = m + (a.code ++ [op]).length ∧ (eval D ctx s.env a >>= F) = .ok v ∧
      loopC D ok ctx m (s.put (a.code ++ [op]).length t' v) = .ok r := by
  rw [ha hfr hc.left]
  simp only [List.length_append, List.length_singleton]
  have key : ∀ v, eval D ctx s.env a = .ok v → ∀ m, loopC D ok ctx m (s.put a.code.length t v) = .ok r ↔
      ∃ w k, m = k + 1 ∧ F v = .ok w ∧ loopC D ok ctx k (s.put (a.code.length + 1) t' w) = .ok r := fun v hv m =>
    loopC_simple hf (by rw [St.put_body, St.put_ip]; exact hc.right.head) hne (hg _) (hs v hv)
  constructor
  · rintro ⟨v, m, rfl, hv, h⟩
    obtain ⟨w, k, rfl, hw, h⟩ := (key v hv m).mp h
    exact ⟨w, k, by omega, Except.bind_ok_iff.mpr ⟨v, hv, hw⟩, h⟩
  · rintro ⟨w, k, rfl, hw, h⟩
    obtain ⟨v, hv, hw⟩ := bind_ok hw
    exact ⟨v, k + 1, by omega, hv, (key v hv _).mpr ⟨w, k, rfl, hw, h⟩⟩

theorem loopC_binary {t₁ t₂ t' : Ty} {a : Expr t₁} {b : Expr t₂} {op : OpCode} {F : t₁.Val V → t₂.Val V → Except Err (t'.Val V)}
    (ha : ExprOk D ctx ok a) (hb : ExprOk D ctx ok b) {n : Nat} {s : St V} {r : List V} (hfr : s.Framed)
    (hc : CodeAt s.body s.ip (a.code ++ (b.code ++ [op]))) (hne : op ≠ .ret) (hg : ∀ s, guard D ok s op = .ok ())
    (hs : ∀ v, eval D ctx s.env a = .ok v → ∀ w, eval D ctx s.env b = .ok w → ∀ m,
      step D ctx (runComp D ctx (loopC D ok ctx m)) op ((s.put a.code.length t₁ v).put b.code.length t₂ w) =
        F v w >>= fun u => .ok (s.put (a.code.length + (b.code.length + 1)) t' u)) :
    loopC D ok ctx n s = .ok r ↔ ∃ v m, n = m + (a.code ++ (b.code ++ [op])).length ∧
      (do let x ← eval D ctx s.env a; let y ← eval D ctx s.env b; F x y) = .ok v ∧
      loopC D ok ctx m (s.put (a.code ++ (b.code ++ [op])).length t' v) = .ok r := by
  rw [ha hfr hc.left]
  simp only [List.length_append, List.length_singleton]
  have key : ∀ v, eval D ctx s.env a = .ok v → ∀ m, loopC D ok ctx m (s.put a.code.length t₁ v) = .ok r ↔
      ∃ w k, m = k + (b.code.length + 1) ∧ (eval D ctx s.env b >>= F v) = .ok w ∧
        loopC D ok ctx k (s.put (a.code.length + (b.code.length + 1)) t' w) = .ok r := fun v hv m => by
    have hcb : CodeAt (s.put a.code.length t₁ v).body (s.put a.code.length t₁ v).ip (b.code ++ [op]) := by
      rw [St.put_body, St.put_ip]; exact hc.right
    rw [hb (hfr.put _ _ _) hcb.left, St.put_env]
    have key' : ∀ w, eval D ctx s.env b = .ok w → ∀ m,
        loopC D ok ctx m ((s.put a.code.length t₁ v).put b.code.length t₂ w) = .ok r ↔
          ∃ u k, m = k + 1 ∧ F v w = .ok u ∧ loopC D ok ctx k (s.put (a.code.length + (b.code.length + 1)) t' u) = .ok r :=
      fun w hw m => loopC_simple hf (by rw [St.put_body, St.put_ip]; exact hcb.right.head) hne (hg _) (hs v hv w hw)
    constructor
    · rintro ⟨w, m, rfl, hw, h⟩
      obtain ⟨u, k, rfl, hu, h⟩ := (key' w hw m).mp h
      exact ⟨u, k, by omega, Except.bind_ok_iff.mpr ⟨w, hw, hu⟩, h⟩
    · rintro ⟨u, k, rfl, hu, h⟩
      obtain ⟨w, hw, hu⟩ := bind_ok hu
      exact ⟨w, k + 1, by omega, hw, (key' w hw _).mpr ⟨u, k, rfl, hu, h⟩⟩
  constructor
  · rintro ⟨v, m, rfl, hv, h⟩
    obtain ⟨w, k, rfl, hw, h⟩ := (key v hv m).mp h
    exact ⟨w, k, by omega, Except.bind_ok_iff.mpr ⟨v, hv, hw⟩, h⟩
  · rintro ⟨w, k, rfl, hw, h⟩
    obtain ⟨v, hv, hw⟩ := bind_ok hw
    exact ⟨v, k + (b.code.length + 1), by omega, hv, (key v hv _).mpr ⟨w, k, rfl, hw, h⟩⟩

/-- An expression. -/
theorem loopC_expr {t : Ty} (e : Expr t) : ExprOk D ctx ok e := by
  induction e with
  | const k =>
    intro n s r hfr hc
    obtain ⟨⟨f, q, hq⟩, -⟩ := id hfr
    rw [loopC_simple hf (x := eval D ctx s.env (.const k)) (g := s.put 1 (.fld 1)) hc.head (by simp) rfl]
    · rfl
    · intro m
      simp only [step, opPushConstant, eval, bind_assoc]
      cases ctx.constants[k]? with
      | none => simp [orFail, hf, bind, Except.bind]
      | some c => simp [orFail, St.push, St.pushAll, hq, St.put, St.next, bind, Except.bind, pure, Except.pure]
  | lit k =>
    intro n s r hfr hc
    obtain ⟨-, f, q, hq⟩ := id hfr
    rw [loopC_simple hf (x := eval D ctx s.env (.lit k)) (g := s.put 1 .idx) hc.head (by simp) rfl]
    · rfl
    · intro m
      simp [step, opPushIndex, eval, orFail, St.pushIdx, hq, St.put, St.next, bind, Except.bind, pure, Except.pure]
  | vars k loc ih =>
    intro n s r hfr hc
    refine loopC_unary hf ih hfr hc (by simp) (fun _ => rfl) fun v hv m => ?_
    obtain ⟨⟨f, q, hq⟩, f', q', hq'⟩ := id hfr
    simp only [step, opLoadVars, St.put, St.popIdx, hq']
    cases h : readSlice s.vars v k with
    | none => simp [St.env, orFail, h, hf, bind, Except.bind, pure, Except.pure]
    | some u =>
      simp [St.env, orFail, h, hq, hq', St.pushAll, St.next, bind, Except.bind, pure, Except.pure, Nat.add_assoc]
  | signals k loc ih =>
    intro n s r hfr hc
    refine loopC_unary hf ih hfr hc (by simp) (fun _ => rfl) fun (v : Nat) hv m => ?_
    obtain ⟨⟨f, q, hq⟩, f', q', hq'⟩ := id hfr
    simp only [step, opLoadSignals, St.put, St.popIdx, hq']
    cases h : readSlice s.signals (Nat.add s.offset v) k with
    | none => simp [St.env, orFail, show readSlice s.signals (s.offset + v) k = none from h, h, hf, bind, Except.bind, pure, Except.pure]
    | some u =>
      simp [St.env, orFail, show readSlice s.signals (s.offset + v) k = some u from h, h, hq, hq', St.pushAll, St.next, bind,
        Except.bind, pure, Except.pure, Nat.add_assoc]
  | output mapped code k loc cmp ih ih' =>
    intro n s r hfr hc
    refine loopC_binary hf ih ih' hfr hc (by simp) (fun _ => rfl) fun (v : Nat) hv (w : Nat) hw m => ?_
    obtain ⟨⟨f, q, hq⟩, f', q', hq'⟩ := id hfr
    simp only [step, opOutputSubComp, St.put, St.popIdx, hq', outVal, St.env]
    simp only [orFail, pure_bind]
    cases h : s.subs[w]? with
    | none => simp [hf, bind, Except.bind]
    | some c =>
      simp only [pure_bind]
      cases h : signalOffset c mapped code v with
      | none => simp [hf, bind, Except.bind]
      | some off =>
        simp only [pure_bind]
        cases h : readSlice s.signals off k with
        | none => simp [hf, bind, Except.bind]
        | some u => simp [hq, St.pushAll, St.next, bind, Except.bind, pure, Except.pure, Nat.add_assoc]
  | bin op a b iha ihb =>
    intro n s r hfr hc
    refine loopC_binary hf iha ihb hfr hc (by simp) (fun _ => rfl) fun v hv w hw m => ?_
    obtain ⟨⟨f, q, hq⟩, f', q', hq'⟩ := id hfr
    obtain ⟨x, rfl⟩ := List.length_eq_one_iff.mp (eval_length hf a hv)
    obtain ⟨y, rfl⟩ := List.length_eq_one_iff.mp (eval_length hf b hw)
    simp only [step, opBin, St.put, St.pop, hq, binVal, St.env]
    simp only [orFail, List.reverse_singleton, List.singleton_append, pure_bind, bind_assoc, St.push, St.pushAll, St.next]
    cases guardDivisor D op s.ifs y with
    | error => rfl
    | ok c =>
      simp only [bind, Except.bind]
      cases D.bin op x c <;> simp [Nat.add_assoc, pure, Except.pure, List.reverse_singleton]
  | neg a ih =>
    intro n s r hfr hc
    refine loopC_unary hf ih hfr hc (by simp) (fun _ => rfl) fun v hv m => ?_
    obtain ⟨⟨f, q, hq⟩, f', q', hq'⟩ := id hfr
    obtain ⟨x, rfl⟩ := List.length_eq_one_iff.mp (eval_length hf a hv)
    simp only [step, opNeg, St.put, St.pop, hq, negVal, St.env]
    simp only [orFail, List.reverse_singleton, List.singleton_append, pure_bind, bind_assoc, St.push, St.pushAll, St.next]
    cases D.neg x <;> simp [Nat.add_assoc, pure, Except.pure, bind, Except.bind]
  | eq k a b iha ihb =>
    intro n s r hfr hc
    refine loopC_binary hf iha ihb hfr hc (by simp) (fun _ => rfl) fun (v : List V) hv (w : List V) hw m => ?_
    obtain ⟨⟨f, q, hq⟩, f', q', hq'⟩ := id hfr
    have hlv := eval_length hf a hv
    have hlw := eval_length hf b hw
    simp only [step, opEqN, St.put, St.popN, hq, St.env]
    have h1 : k ≤ (List.reverse w ++ (List.reverse v ++ f)).length := by simp; omega
    have h2 : (List.reverse w ++ (List.reverse v ++ f)).take k = List.reverse w := List.take_left' (by simpa using hlw)
    have h3 : (List.reverse w ++ (List.reverse v ++ f)).drop k = List.reverse v ++ f := List.drop_left' (by simpa using hlw)
    have h4 : k ≤ (List.reverse v ++ f).length := by simp; omega
    have h5 : (List.reverse v ++ f).take k = List.reverse v := List.take_left' (by simpa using hlv)
    have h6 : (List.reverse v ++ f).drop k = f := List.drop_left' (by simpa using hlv)
    simp only [if_pos h1, h2, h3, orFail, pure_bind, if_pos h4, h5, h6, St.push, St.pushAll, St.next, bind_assoc]
    cases (v.reverse.zip w.reverse).foldlM (eqStep D) D.one <;> simp [Nat.add_assoc, pure, Except.pure, bind, Except.bind]
  | toIndex a ih =>
    intro n s r hfr hc
    refine loopC_unary hf ih hfr hc (by simp) (fun _ => rfl) fun v hv m => ?_
    obtain ⟨⟨f, q, hq⟩, f', q', hq'⟩ := id hfr
    obtain ⟨x, rfl⟩ := List.length_eq_one_iff.mp (eval_length hf a hv)
    simp only [step, opToIndex, St.put, St.pop, hq, hq', idxVal, St.env]
    simp only [orFail, List.reverse_singleton, List.singleton_append, pure_bind, bind_assoc, St.pushIdx, hq', St.next]
    cases D.toIndex x <;> simp [Nat.add_assoc, pure, Except.pure, bind, Except.bind]
  | add a b iha ihb =>
    intro n s r hfr hc
    refine loopC_binary hf iha ihb hfr hc (by simp) (fun _ => rfl) fun v hv w hw m => ?_
    obtain ⟨⟨f, q, hq⟩, f', q', hq'⟩ := id hfr
    simp only [step, opIdx, St.put, St.popIdx, hq']
    simp only [orFail, pure_bind, St.pushIdx, St.next]
    simp [Nat.add_assoc, pure, Except.pure, bind, Except.bind]
    rfl
  | mul a b iha ihb =>
    intro n s r hfr hc
    refine loopC_binary hf iha ihb hfr hc (by simp) (fun _ => rfl) fun v hv w hw m => ?_
    obtain ⟨⟨f, q, hq⟩, f', q', hq'⟩ := id hfr
    simp only [step, opIdx, St.put, St.popIdx, hq']
    simp only [orFail, pure_bind, St.pushIdx, St.next]
    simp [Nat.add_assoc, pure, Except.pure, bind, Except.bind]
    rfl

/-- An expression and an instruction. -/
theorem loopC_one {t : Ty} (a : Expr t) {op : OpCode} {α : Type} {F : t.Val V → Except Err α} {G : α → St V}
    {n : Nat} {s : St V} {r : List V} (hfr : s.Framed) (hc : CodeAt s.body s.ip (a.code ++ [op])) (hne : op ≠ .ret)
    (hg : ∀ v, guard D ok (s.put a.code.length t v) op = .ok ())
    (hs : ∀ v, eval D ctx s.env a = .ok v → ∀ m, step D ctx (runComp D ctx (loopC D ok ctx m)) op (s.put a.code.length t v) =
      F v >>= fun w => .ok (G w)) :
    loopC D ok ctx n s = .ok r ↔ ∃ v m, n = m + (a.code.length + 1) ∧ (eval D ctx s.env a >>= F) = .ok v ∧
      loopC D ok ctx m (G v) = .ok r := by
  rw [loopC_expr hf a hfr hc.left]
  have key : ∀ v, eval D ctx s.env a = .ok v → ∀ m, loopC D ok ctx m (s.put a.code.length t v) = .ok r ↔
      ∃ w k, m = k + 1 ∧ F v = .ok w ∧ loopC D ok ctx k (G w) = .ok r := fun v hv m =>
    loopC_simple hf (by rw [St.put_body, St.put_ip]; exact hc.right.head) hne (hg _) (hs v hv)
  constructor
  · rintro ⟨v, m, rfl, hv, h⟩
    obtain ⟨w, k, rfl, hw, h⟩ := (key v hv m).mp h
    exact ⟨w, k, by omega, Except.bind_ok_iff.mpr ⟨v, hv, hw⟩, h⟩
  · rintro ⟨w, k, rfl, hw, h⟩
    obtain ⟨v, hv, hw⟩ := bind_ok hw
    exact ⟨v, k + 1, by omega, hv, (key v hv _).mpr ⟨w, k, rfl, hw, h⟩⟩

/-- Two expressions and an instruction. -/
theorem loopC_two {t₁ t₂ : Ty} (a : Expr t₁) (b : Expr t₂) {op : OpCode} {α : Type} {F : t₁.Val V → t₂.Val V → Except Err α}
    {G : α → St V} {n : Nat} {s : St V} {r : List V} (hfr : s.Framed)
    (hc : CodeAt s.body s.ip (a.code ++ (b.code ++ [op]))) (hne : op ≠ .ret) (hg : ∀ s, guard D ok s op = .ok ())
    (hs : ∀ v, eval D ctx s.env a = .ok v → ∀ w, eval D ctx s.env b = .ok w → ∀ m,
      step D ctx (runComp D ctx (loopC D ok ctx m)) op ((s.put a.code.length t₁ v).put b.code.length t₂ w) =
        F v w >>= fun u => .ok (G u)) :
    loopC D ok ctx n s = .ok r ↔ ∃ v m, n = m + (a.code.length + (b.code.length + 1)) ∧
      (do let x ← eval D ctx s.env a; let y ← eval D ctx s.env b; F x y) = .ok v ∧ loopC D ok ctx m (G v) = .ok r := by
  rw [loopC_expr hf a hfr hc.left]
  have key : ∀ v, eval D ctx s.env a = .ok v → ∀ m, loopC D ok ctx m (s.put a.code.length t₁ v) = .ok r ↔
      ∃ w k, m = k + (b.code.length + 1) ∧ (eval D ctx s.env b >>= F v) = .ok w ∧
        loopC D ok ctx k (G w) = .ok r := fun v hv m => by
    have hcb : CodeAt (s.put a.code.length t₁ v).body (s.put a.code.length t₁ v).ip (b.code ++ [op]) := by
      rw [St.put_body, St.put_ip]; exact hc.right
    rw [loopC_one hf b (hfr.put _ _ _) hcb hne (fun _ => hg _) (F := F v) (G := G), St.put_env]
    intro w hw
    rw [St.put_env] at hw
    exact hs v hv w hw
  constructor
  · rintro ⟨v, m, rfl, hv, h⟩
    obtain ⟨w, k, rfl, hw, h⟩ := (key v hv m).mp h
    exact ⟨w, k, by omega, Except.bind_ok_iff.mpr ⟨v, hv, hw⟩, h⟩
  · rintro ⟨w, k, rfl, hw, h⟩
    obtain ⟨v, hv, hw⟩ := bind_ok hw
    exact ⟨v, k + (b.code.length + 1), by omega, hv, (key v hv _).mpr ⟨w, k, rfl, hw, h⟩⟩

end

end Verif.CircomVm
