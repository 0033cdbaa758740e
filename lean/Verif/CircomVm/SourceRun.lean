import Verif.CircomVm.SourceExec

/-!
# Statements and the VM

`exec_sound` and `exec_complete` relate the executions of statements to the loop of the VM on their code.
-/

namespace Verif.CircomVm

variable {V P A : Type} {D : Driver (Except Err) V P A} {ctx : Ctx P} {ok : List (IfCtx V) → Bool}

section

variable (hf : ∀ {α : Type} e, D.fail (α := α) e = .error e)

include hf

theorem loopC_storeVars {k : Nat} {src : Expr (.fld k)} {loc : Expr .idx} {n : Nat} {s : St V} {r : List V} (hfr : s.Framed)
    (hc : CodeAt s.body s.ip (Stmt.storeVars k src loc).code) :
    loopC D ok ctx n s = .ok r ↔ ∃ mem m, n = m + (src.code.length + (loc.code.length + 1)) ∧
      (do let x ← eval D ctx s.env src; let y ← eval D ctx s.env loc; assign D s.ifs s.vars y x) = .ok mem ∧
      loopC D ok ctx m (s.after (src.code.length + (loc.code.length + 1)) { s.env with vars := mem }) = .ok r := by
  refine loopC_two hf src loc (F := fun (x : List V) (y : Nat) => assign D s.ifs s.vars y x) hfr hc (by simp) (fun _ => rfl)
    fun (v : List V) hv (w : Nat) hw m => ?_
  obtain ⟨⟨f, q, hq⟩, f', q', hq'⟩ := id hfr
  have hl := eval_length hf src hv
  simp only [step, opStoreVars, St.put, St.popIdx, hq', store, St.popN, hq, orFail, pure_bind, assign]
  have h1 : k ≤ (v.reverse ++ f).length := by simp; omega
  have h2 : (v.reverse ++ f).take k = v.reverse := List.take_left' (by simpa using hl)
  have h3 : (v.reverse ++ f).drop k = f := List.drop_left' (by simpa using hl)
  simp only [if_pos h1, h2, h3, pure_bind, hl]
  cases readSlice s.vars w k with
  | none => simp [hf, bind, Except.bind]
  | some olds =>
    simp only [pure_bind]
    cases muxAll D s.ifs v.reverse olds.reverse with
    | error => rfl
    | ok vals =>
      simp only [bind, Except.bind]
      cases writeSlice s.vars w vals.reverse with
      | none => simp [hf]
      | some mem => simp [St.after, St.env, St.next, hq, hq', pure, Except.pure, Nat.add_assoc]

theorem loopC_storeSignals {k : Nat} {src : Expr (.fld k)} {loc : Expr .idx} {n : Nat} {s : St V} {r : List V} (hfr : s.Framed)
    (hc : CodeAt s.body s.ip (Stmt.storeSignals k src loc).code) :
    loopC D ok ctx n s = .ok r ↔ ∃ mem m, n = m + (src.code.length + (loc.code.length + 1)) ∧
      (do let x ← eval D ctx s.env src; let y ← eval D ctx s.env loc; assign D s.ifs s.signals (Nat.add s.offset y) x) = .ok mem ∧
      loopC D ok ctx m (s.after (src.code.length + (loc.code.length + 1)) { s.env with signals := mem }) = .ok r := by
  refine loopC_two hf src loc (F := fun (x : List V) (y : Nat) => assign D s.ifs s.signals (s.offset + y) x) hfr hc (by simp)
    (fun _ => rfl) fun (v : List V) hv (w : Nat) hw m => ?_
  obtain ⟨⟨f, q, hq⟩, f', q', hq'⟩ := id hfr
  have hl := eval_length hf src hv
  simp only [step, opStoreSignals, St.put, St.popIdx, hq', store, St.popN, hq, orFail, pure_bind, assign]
  have h1 : k ≤ (v.reverse ++ f).length := by simp; omega
  have h2 : (v.reverse ++ f).take k = v.reverse := List.take_left' (by simpa using hl)
  have h3 : (v.reverse ++ f).drop k = f := List.drop_left' (by simpa using hl)
  simp only [if_pos h1, h2, h3, pure_bind, hl]
  cases readSlice s.signals (s.offset + w) k with
  | none => simp [hf, bind, Except.bind]
  | some olds =>
    simp only [pure_bind]
    cases muxAll D s.ifs v.reverse olds.reverse with
    | error => rfl
    | ok vals =>
      simp only [bind, Except.bind]
      cases writeSlice s.signals (s.offset + w) vals.reverse with
      | none => simp [hf]
      | some mem => simp [St.after, St.env, St.next, hq, hq', pure, Except.pure, Nat.add_assoc]

/-- A condition. -/
theorem loopC_cond {c : Expr (.fld 1)} {op : OpCode} {rest : List OpCode} {n : Nat} {s : St V} {r : List V} (hfr : s.Framed)
    (hc : CodeAt s.body s.ip (c.code ++ op :: rest)) (hne : op ≠ .ret) :
    loopC D ok ctx n s = .ok r ↔ ∃ x m s', n = m + (c.code.length + 1) ∧ eval D ctx s.env c = .ok ([x] : List V) ∧
      guard D ok (s.put c.code.length (.fld 1) ([x] : List V)) op = .ok () ∧
      step D ctx (runComp D ctx (loopC D ok ctx m)) op (s.put c.code.length (.fld 1) ([x] : List V)) = .ok s' ∧
      loopC D ok ctx m s' = .ok r := by
  rw [loopC_expr hf c hfr hc.left]
  have hop (v : List V) : (s.put c.code.length (.fld 1) v).body[(s.put c.code.length (.fld 1) v).ip]? = some op :=
    hc.right.head
  constructor
  · rintro ⟨v, m, rfl, hv, h⟩
    obtain ⟨x, rfl⟩ := List.length_eq_one_iff.mp (eval_length hf c hv)
    obtain ⟨m, s', rfl, h1, h2, h3⟩ := (loopC_step hf (hop _) hne).mp h
    exact ⟨x, m, s', by omega, hv, h1, h2, h3⟩
  · rintro ⟨x, m, s', rfl, hv, h1, h2, h3⟩
    exact ⟨[x], m + 1, by omega, hv, (loopC_step hf (hop _) hne).mpr ⟨m, s', rfl, h1, h2, h3⟩⟩

omit hf in
theorem step_assert {run : TemplateDecl → Nat → List V → Except Err (List V)} {s : St V} (hfr : s.Framed) (k line : Nat) (x : V) :
    step D ctx run (.assert line) (s.put k (.fld 1) ([x] : List V)) = (do
      let z ← D.isZero x true
      if z then D.fail (.err "Assertion failed during execution") else .ok (s.after (k + 1) s.env)) := by
  obtain ⟨⟨f, q, hq⟩, -⟩ := hfr
  simp only [step, opAssert, St.put, hq, St.pop, orFail, List.reverse_singleton, List.singleton_append, pure_bind]
  cases D.isZero x true with
  | error => rfl
  | ok z => cases z <;> simp [St.after, St.env, St.next, hq, pure, Except.pure, bind, Except.bind, Nat.add_assoc]

omit hf in
theorem step_log {run : TemplateDecl → Nat → List V → Except Err (List V)} {s : St V} (hfr : s.Framed) (k : Nat) (x : V) :
    step D ctx run .log (s.put k (.fld 1) ([x] : List V)) = (do
      let _ ← D.log x ctx.leakyLogs
      .ok (s.after (k + 1) s.env)) := by
  obtain ⟨⟨f, q, hq⟩, -⟩ := hfr
  simp only [step, opLog, St.put, hq, St.pop, orFail, List.reverse_singleton, List.singleton_append, pure_bind]
  cases D.log x ctx.leakyLogs <;> simp [St.after, St.env, St.next, hq, pure, Except.pure, bind, Except.bind, Nat.add_assoc]

theorem loopC_back {s s' : St V} {op : OpCode} (h : s.body[s.ip]? = some op) (hne : op ≠ .ret)
    (hg : guard D ok s op = .ok ()) (hs : ∀ run, step D ctx run op s = .ok s') {m : Nat} {r : List V}
    (h' : loopC D ok ctx m s' = .ok r) : loopC D ok ctx (m + 1) s = .ok r :=
  (loopC_step hf h hne).mpr ⟨m, s', rfl, hg, hs _, h'⟩

omit hf in
theorem loopC_after {s : St V} {m k k' : Nat} {e e' : Env V} {r : List V} (h : loopC D ok ctx m (s.after (k + k') e') = .ok r) :
    loopC D ok ctx m ((s.after k e).after k' e') = .ok r := by rw [St.after_after]; exact h

omit hf in
/-- The guard of an `if` with an else branch. -/
theorem guard_ite {s : St V} {k j i : Nat} {x : V} (h : s.body[s.ip + k + j - 1]? = some (.endTruthyBranch (i + 1))) :
    guard D ok (s.put k (.fld 1) ([x] : List V)) (.branch j) = .ok () := by
  simp only [guard, elseLess, St.put, h]
  simp [pure, Except.pure, bind, Except.bind]

/-- The guard of an `if` without an else branch. -/
theorem guard_ifThen {s : St V} (hfr : s.Framed) {k j : Nat} {x : V}
    (h : s.body[s.ip + k + j - 1]? = some (.endTruthyBranch 0)) {sh z : Bool} (hsh : D.isShared x = .ok sh)
    (hz : sh = false → D.isZero x false = .ok z) :
    guard D ok (s.put k (.fld 1) ([x] : List V)) (.branch j) = .ok () ↔ (sh = false → z = true → ok s.ifs = true) := by
  obtain ⟨⟨f, q, hq⟩, -⟩ := hfr
  simp only [guard, elseLess, St.put, h, if_true, hq, St.pop, orFail, List.reverse_singleton, List.singleton_append, pure_bind, hsh]
  cases hk : ok s.ifs with
  | true => simp [pure, Except.pure]
  | false =>
    cases sh with
    | true => simp [pure, Except.pure, bind, Except.bind]
    | false =>
      rw [hz rfl]
      cases z <;> simp [pure, Except.pure, bind, Except.bind, hf]

omit hf in
theorem step_jumpBack {run : TemplateDecl → Nat → List V → Except Err (List V)} {s : St V} {e : Env V} (k : Nat) :
    step D ctx run (.jumpBack k) (s.after k e) = .ok (s.after 0 e) := by
  simp [step, opJumpBack, St.after, pure, Except.pure]

end

/-- A run of a sub-component with less fuel than `n`. -/
def SubN (D : Driver (Except Err) V P A) (ctx : Ctx P) (ok : List (IfCtx V) → Bool) (n : Nat) : SubRun V :=
  fun d o a b => ∃ m < n, runComp D ctx (loopC D ok ctx m) d o a = .ok b

/-- A run of a sub-component. -/
def SubAny (D : Driver (Except Err) V P A) (ctx : Ctx P) (ok : List (IfCtx V) → Bool) : SubRun V :=
  fun d o a b => ∃ m, runComp D ctx (loopC D ok ctx m) d o a = .ok b

theorem Big.mono_fuel {n n' : Nat} (h : n ≤ n') {c : Stmt} {env env' : Env V} (hb : Big D ctx ok (SubN D ctx ok n) c env env') :
    Big D ctx ok (SubN D ctx ok n') c env env' :=
  hb.mono fun _ _ _ _ ⟨m, hm, hr⟩ => ⟨m, by omega, hr⟩

section

variable (hf : ∀ {α : Type} e, D.fail (α := α) e = .error e)

include hf

set_option maxHeartbeats 1000000 in
/-- What the VM does on the code of a statement is an execution of the statement. -/
theorem exec_complete (hok : ∀ ifs, ok ifs = true → sharedCond ifs = none) (c : Stmt) : ∀ {n : Nat} {s : St V} {r : List V},
    s.Framed → CodeAt s.body s.ip c.code → loopC D ok ctx n s = .ok r →
    ∃ env' n', n' ≤ n ∧ Big D ctx ok (SubN D ctx ok n) c s.env env' ∧
      loopC D ok ctx n' (s.after c.code.length env') = .ok r := by
  induction c with
  | skip =>
    intro n s r hfr hc h
    exact ⟨s.env, n, le_rfl, .skip, h⟩
  | seq a b iha ihb =>
    intro n s r hfr hc h
    obtain ⟨e₁, n₁, h1, hb1, h⟩ := iha hfr hc.left h
    obtain ⟨e₂, n₂, h2, hb2, h⟩ := ihb (s := s.after a.code.length e₁) (hfr.after _ _) hc.right h
    rw [St.after_after] at h
    refine ⟨e₂, n₂, by omega, .seq hb1 (hb2.mono_fuel h1), ?_⟩
    simpa only [Stmt.code, List.length_append] using h
  | storeVars k src loc =>
    intro n s r hfr hc h
    obtain ⟨mem, m, rfl, h1, h⟩ := (loopC_storeVars hf hfr hc).mp h
    obtain ⟨vs, h1, h2⟩ := bind_ok h1
    obtain ⟨i, h2, h3⟩ := bind_ok h2
    exact ⟨_, m, by omega, .storeVars h1 h2 h3, by simpa only [Stmt.code, List.length_append, List.length_singleton] using h⟩
  | storeSignals k src loc =>
    intro n s r hfr hc h
    obtain ⟨mem, m, rfl, h1, h⟩ := (loopC_storeSignals hf hfr hc).mp h
    obtain ⟨vs, h1, h2⟩ := bind_ok h1
    obtain ⟨i, h2, h3⟩ := bind_ok h2
    exact ⟨_, m, by omega, .storeSignals h1 h2 h3, by simpa only [Stmt.code, List.length_append, List.length_singleton] using h⟩
  | storeInput mapped code k src loc cmp =>
    intro n s r hfr hc h
    obtain ⟨v, m, rfl, hv, h⟩ := (loopC_expr hf src hfr hc.left).mp h
    have hc1 : CodeAt (s.put src.code.length (.fld k) v).body (s.put src.code.length (.fld k) v).ip
        (loc.code ++ (cmp.code ++ [.inputSubComp mapped code k])) := hc.right
    obtain ⟨w, m, rfl, hw, h⟩ := (loopC_expr hf loc (hfr.put _ _ _) hc1.left).mp h
    have hc2 : CodeAt ((s.put src.code.length (.fld k) v).put loc.code.length .idx w).body
        ((s.put src.code.length (.fld k) v).put loc.code.length .idx w).ip (cmp.code ++ [.inputSubComp mapped code k]) := hc1.right
    obtain ⟨u, m, rfl, hu, h⟩ := (loopC_expr hf cmp ((hfr.put _ _ _).put _ _ _) hc2.left).mp h
    obtain ⟨m, s', rfl, -, h1, h⟩ := (loopC_step hf hc2.right.head (by simp)).mp h
    obtain ⟨h0, d, off, sig, sig', subs, h2, h3, h4, h5, rfl⟩ := (step_input hf hfr (eval_length hf src hv)).mp h1
    exact ⟨_, m, by omega, .storeInput h0 hv hw hu h2 h3 h4 (h5.mono fun _ _ _ _ hr => ⟨m, by omega, hr⟩),
      by simpa only [Stmt.code, List.length_append, List.length_singleton] using h⟩
  | create symbol offset jump k =>
    intro n s r hfr hc h
    have hc1 : CodeAt s.body s.ip ((Expr.lit offset).code ++ ((Expr.lit jump).code ++ [.createCmp symbol k])) := hc
    obtain ⟨v, m, rfl, hv, h⟩ := (loopC_expr hf (.lit offset) hfr hc1.left).mp h
    obtain rfl : offset = v := ok_inj.mp hv
    obtain ⟨v, m, rfl, hv, h⟩ := (loopC_expr hf (.lit jump) (hfr.put _ _ _)
      (s := s.put 1 .idx offset) hc1.right.left).mp h
    obtain rfl : jump = v := ok_inj.mp hv
    obtain ⟨m, s', rfl, hg, h1, h⟩ := (loopC_step hf (s := (s.put 1 .idx offset).put 1 .idx jump)
      hc1.right.right.head (by simp)).mp h
    obtain ⟨decl, sig, subs, hd, h2, rfl⟩ := (step_create hf hfr).mp h1
    have hk : ok s.ifs = true := by
      by_contra hk
      have : guard D ok ((s.put 1 .idx offset).put 1 .idx jump) (.createCmp symbol k) = D.fail _ := if_neg hk
      rw [this, hf] at hg
      cases hg
    exact ⟨_, m, by omega, .create hk hd (h2.mono fun _ _ _ _ hr => ⟨m, by omega, hr⟩), h⟩
  | ite c t e iht ihe =>
    intro n s r hfr hc h
    simp only [Stmt.code, List.length_append, List.length_cons, List.length_nil]
    have hc1 : CodeAt s.body (s.ip + c.code.length + 1) _ := hc.right.tail
    have hc2 : CodeAt s.body (s.ip + c.code.length + 1 + t.code.length) _ := hc1.right
    have hc3 : CodeAt s.body (s.ip + c.code.length + 1 + t.code.length + 1) _ := hc2.tail
    obtain ⟨x, m, s', rfl, hx, -, h1, h⟩ := (loopC_cond hf hfr hc (by simp)).mp h
    rw [step_branch hfr] at h1
    obtain ⟨sh, hsh, h1⟩ := bind_ok h1
    cases sh with
    | true =>
      rw [if_pos rfl] at h1
      obtain ⟨acc, hacc, h1⟩ := bind_ok h1
      obtain rfl := ok_inj.mp h1
      obtain ⟨e₁, n₁, hn1, hb1, h⟩ := iht (hfr.after _ _) (by simpa only [St.after, Nat.add_assoc] using hc1.left) h
      rw [St.after_after] at h
      have he₁ := (hb1.leaks hok).eq (by simp [St.after_env, sharedCond])
      rw [St.after_env] at hb1 he₁
      obtain ⟨m₁, s', rfl, -, h1, h⟩ := (loopC_step hf (by simpa only [St.after, Nat.add_assoc] using hc2.head) (by simp)).mp h
      rw [step_endTruthy (by exact he₁)] at h1
      obtain ⟨nx, hnx, h1⟩ := bind_ok h1
      obtain ⟨acc', hacc', h1⟩ := bind_ok h1
      obtain rfl := ok_inj.mp h1
      rw [St.after_after, St.after_env] at h
      obtain ⟨e₂, n₂, hn2, hb2, h⟩ := ihe (hfr.after _ _) (by simpa only [St.after, Nat.add_assoc] using hc3.left) h
      rw [St.after_after] at h
      have he₂ := (hb2.leaks hok).eq (by simp [St.after_env, sharedCond])
      rw [St.after_env] at hb2 he₂
      obtain ⟨m₂, s', rfl, -, h1, h⟩ := (loopC_step hf (by simpa only [St.after, Nat.add_assoc] using hc3.right.head) (by simp)).mp h
      rw [step_endFalsy (by exact he₂)] at h1
      obtain rfl := ok_inj.mp h1
      rw [St.after_after, St.after_env] at h
      refine ⟨_, m₂, by omega, .iteShared hx hsh rfl hacc (hb1.mono_fuel (by omega)) he₁ hnx hacc' (hb2.mono_fuel (by omega)) he₂, ?_⟩
      simpa only [Nat.add_assoc, Nat.zero_add, Nat.add_comm, Nat.add_left_comm] using h
    | false =>
      rw [if_neg (by simp)] at h1
      obtain ⟨z, hz, h1⟩ := bind_ok h1
      obtain rfl := ok_inj.mp h1
      cases z with
      | false =>
        simp only [Bool.false_eq_true, if_false] at h
        obtain ⟨e₁, n₁, hn1, hb1, h⟩ := iht (hfr.after _ _) (by simpa only [St.after, Nat.add_assoc] using hc1.left) h
        rw [St.after_after] at h
        obtain ⟨rst, he₁, -⟩ := (hb1.leaks hok).pop
        rw [St.after_env] at hb1
        obtain ⟨m₁, s', rfl, -, h1, h⟩ := (loopC_step hf (by simpa only [St.after, Nat.add_assoc] using hc2.head) (by simp)).mp h
        rw [step_endTruthy_pub (by exact he₁)] at h1
        obtain rfl := ok_inj.mp h1
        rw [St.after_after, St.after_env] at h
        refine ⟨_, m₁, by omega, .iteTrue hx hsh hz (hb1.mono_fuel (by omega)) he₁, ?_⟩
        have : max 1 (e.code.length + 2) = e.code.length + 2 := by omega
        rw [this] at h
        convert h using 3
        omega
      | true =>
        simp only [if_true] at h
        obtain ⟨e₁, n₁, hn1, hb1, h⟩ := ihe (hfr.after _ _) (by
          have := hc3.left
          simp only [St.after]
          convert this using 1
          omega) h
        rw [St.after_after] at h
        obtain ⟨rst, he₁, -⟩ := (hb1.leaks hok).pop
        rw [St.after_env] at hb1
        obtain ⟨m₁, s', rfl, -, h1, h⟩ := (loopC_step hf (by
          have := hc3.right.head
          simp only [St.after]
          convert this using 2
          omega) (by simp)).mp h
        rw [step_endFalsy (by exact he₁)] at h1
        obtain rfl := ok_inj.mp h1
        rw [St.after_after, St.after_env] at h
        refine ⟨_, m₁, by omega, .iteFalse hx hsh hz (hb1.mono_fuel (by omega)) he₁, ?_⟩
        convert h using 3
        omega
  | ifThen c t iht =>
    intro n s r hfr hc h
    simp only [Stmt.code, List.length_append, List.length_cons, List.length_nil]
    have hc1 : CodeAt s.body (s.ip + c.code.length + 1) _ := hc.right.tail
    have hc2 : CodeAt s.body (s.ip + c.code.length + 1 + t.code.length) _ := hc1.right
    obtain ⟨x, m, s', rfl, hx, hg, h1, h⟩ := (loopC_cond hf hfr hc (by simp)).mp h
    rw [step_branch hfr] at h1
    obtain ⟨sh, hsh, h1⟩ := bind_ok h1
    cases sh with
    | true =>
      rw [if_pos rfl] at h1
      obtain ⟨acc, hacc, h1⟩ := bind_ok h1
      obtain rfl := ok_inj.mp h1
      obtain ⟨e₁, n₁, hn1, hb1, h⟩ := iht (hfr.after _ _) (by simpa only [St.after, Nat.add_assoc] using hc1.left) h
      rw [St.after_after] at h
      have he₁ := (hb1.leaks hok).eq (by simp [St.after_env, sharedCond])
      rw [St.after_env] at hb1 he₁
      obtain ⟨m₁, s', rfl, -, h1, h⟩ := (loopC_step hf (by simpa only [St.after, Nat.add_assoc] using hc2.head) (by simp)).mp h
      rw [step_endTruthy_zero (by exact he₁)] at h1
      obtain rfl := ok_inj.mp h1
      rw [St.after_after, St.after_env] at h
      refine ⟨_, m₁, by omega, .ifShared hx hsh rfl hacc (hb1.mono_fuel (by omega)) he₁, ?_⟩
      rw [show c.code.length + (t.code.length + (0 + 1) + 1) = c.code.length + 1 + t.code.length + 1 by omega]
      exact h
    | false =>
      rw [if_neg (by simp)] at h1
      obtain ⟨z, hz, h1⟩ := bind_ok h1
      obtain rfl := ok_inj.mp h1
      cases z with
      | false =>
        simp only [Bool.false_eq_true, if_false] at h
        obtain ⟨e₁, n₁, hn1, hb1, h⟩ := iht (hfr.after _ _) (by simpa only [St.after, Nat.add_assoc] using hc1.left) h
        rw [St.after_after] at h
        obtain ⟨rst, he₁, -⟩ := (hb1.leaks hok).pop
        rw [St.after_env] at hb1
        obtain ⟨m₁, s', rfl, -, h1, h⟩ := (loopC_step hf (by simpa only [St.after, Nat.add_assoc] using hc2.head) (by simp)).mp h
        rw [step_endTruthy_pub (by exact he₁)] at h1
        obtain rfl := ok_inj.mp h1
        rw [St.after_after, St.after_env] at h
        refine ⟨_, m₁, by omega, .ifTrue hx hsh hz (hb1.mono_fuel (by omega)) he₁, ?_⟩
        convert h using 3
        omega
      | true =>
        simp only [if_true] at h
        have hk := (guard_ifThen hf hfr (by
          have := hc2.head
          convert this using 2
          omega) hsh (fun _ => hz)).mp hg rfl rfl
        refine ⟨_, m, by omega, .ifFalse hx hsh hz hk, ?_⟩
        rw [show c.code.length + (t.code.length + (0 + 1) + 1) = c.code.length + (t.code.length + 2) by omega]
        exact h
  | loop c b ih =>
    intro n
    induction n using Nat.strong_induction_on with
    | _ n ihn =>
    intro s r hfr hc h
    have hc1 : CodeAt s.body (s.ip + c.code.length + 1) _ := hc.right.tail
    obtain ⟨x, m, s', rfl, hx, -, h1, h⟩ := (loopC_cond hf hfr hc (by simp)).mp h
    rw [step_jumpIfFalse hfr] at h1
    obtain ⟨z, hz, h1⟩ := bind_ok h1
    obtain rfl := ok_inj.mp h1
    cases z with
    | true =>
      simp only [if_true] at h
      refine ⟨_, m, by omega, .loopDone hx hz, ?_⟩
      simp only [Stmt.code, List.length_append, List.length_cons, List.length_nil]
      convert h using 3
    | false =>
      simp only [Bool.false_eq_true, if_false] at h
      obtain ⟨e₁, n₁, hn1, hb1, h⟩ := ih (hfr.after _ _) (by simpa only [St.after, Nat.add_assoc] using hc1.left) h
      rw [St.after_after] at h
      rw [St.after_env] at hb1
      obtain ⟨m₁, s', rfl, -, h1, h⟩ := (loopC_step hf (by simpa only [St.after, Nat.add_assoc] using hc1.right.head) (by simp)).mp h
      rw [show c.code.length + 1 + b.code.length = b.code.length + c.code.length + 1 by omega] at h1
      have h1 := (step_jumpBack _).symm.trans h1
      obtain rfl := ok_inj.mp h1
      obtain ⟨e₂, n₂, hn2, hb2, h⟩ := ihn m₁ (by omega) (s := s.after 0 e₁) (hfr.after _ _) hc h
      rw [St.after_after, Nat.zero_add] at h
      rw [St.after_env] at hb2
      exact ⟨e₂, n₂, by omega, .loopStep hx hz (hb1.mono_fuel (by omega)) (hb2.mono_fuel (by omega)), h⟩
  | assert line e =>
    intro n s r hfr hc h
    obtain ⟨x, m, s', rfl, hx, -, h1, h⟩ := (loopC_cond hf hfr hc (by simp)).mp h
    rw [step_assert hfr] at h1
    obtain ⟨z, hz, h1⟩ := bind_ok h1
    cases z with
    | true => rw [if_pos rfl, hf] at h1; cases h1
    | false =>
      obtain rfl := ok_inj.mp h1
      exact ⟨_, m, by omega, .assert hx hz, by simpa [Stmt.code] using h⟩
  | log e =>
    intro n s r hfr hc h
    obtain ⟨x, m, s', rfl, hx, -, h1, h⟩ := (loopC_cond hf hfr hc (by simp)).mp h
    rw [step_log hfr] at h1
    obtain ⟨z, hz, h1⟩ := bind_ok h1
    obtain rfl := ok_inj.mp h1
    exact ⟨_, m, by omega, .log hx hz, by simpa [Stmt.code] using h⟩
  | logString k =>
    intro n s r hfr hc h
    obtain ⟨m, s', rfl, -, h1, h⟩ := (loopC_step hf hc.head (by simp)).mp h
    simp only [step] at h1
    split at h1
    · rw [hf] at h1; cases h1
    · obtain rfl := ok_inj.mp h1
      exact ⟨_, m, by omega, .logString (by omega), h⟩
  | logFlush line =>
    intro n s r hfr hc h
    obtain ⟨m, s', rfl, -, h1, h⟩ := (loopC_step hf hc.head (by simp)).mp h
    obtain rfl := ok_inj.mp h1
    exact ⟨_, m, by omega, .logFlush, h⟩

/-- Runs with the given fuel. -/
abbrev SubOf (D : Driver (Except Err) V P A) (ctx : Ctx P) (ok : List (IfCtx V) → Bool) (m : Nat) : SubRun V :=
  fun d o a b => runComp D ctx (loopC D ok ctx m) d o a = .ok b

theorem SubOf.mono {m m' : Nat} (h : m ≤ m') : ∀ d o a b, SubOf D ctx ok m d o a b → SubOf D ctx ok m' d o a b :=
  fun _ _ _ _ hr => runComp_mono hf (fun _ _ h' => loopC_mono hf h h') hr

theorem CreateRel.fuel {decl : TemplateDecl} {l : List Nat} {a b : List V × List Comp}
    (h : CreateRel (SubAny D ctx ok) decl l a b) : ∃ m, CreateRel (SubOf D ctx ok m) decl l a b := by
  induction l generalizing a with
  | nil => exact ⟨0, h⟩
  | cons off r ih =>
    simp only [CreateRel] at h ⊢
    by_cases hi : decl.inputSignals = 0
    · simp only [if_pos hi] at h ⊢
      obtain ⟨sig, ⟨m, h1⟩, h2⟩ := h
      obtain ⟨m', h2⟩ := ih h2
      exact ⟨max m m', sig, SubOf.mono hf (le_max_left m m') _ _ _ _ h1, h2.mono (SubOf.mono hf (le_max_right m m'))⟩
    · simp only [if_neg hi] at h ⊢
      exact ih h

omit hf in
theorem ProvideRel.fuel {sub n : Nat} {c : Comp} {a b : List V × List Comp}
    (h : ProvideRel (SubAny D ctx ok) sub c n a b) : ∃ m, ProvideRel (SubOf D ctx ok m) sub c n a b := by
  simp only [ProvideRel] at h ⊢
  by_cases hi : c.provided + n = c.decl.inputSignals
  · simp only [if_pos hi] at h ⊢
    obtain ⟨h0, sig, ⟨m, h1⟩, h2⟩ := h
    exact ⟨m, h0, sig, h1, h2⟩
  · simp only [if_neg hi] at h ⊢
    exact ⟨0, h⟩

set_option maxHeartbeats 1000000 in
/-- The VM does every execution of a statement. -/
theorem exec_sound {c : Stmt} {env env' : Env V} (hb : Big D ctx ok (SubAny D ctx ok) c env env') :
    ∀ {m : Nat} {s : St V} {r : List V}, s.env = env → s.Framed → CodeAt s.body s.ip c.code →
      loopC D ok ctx m (s.after c.code.length env') = .ok r → ∃ n, loopC D ok ctx n s = .ok r := by
  induction hb with
  | skip =>
    intro m s r he hfr hc h
    subst he
    exact ⟨m, h⟩
  | @seq a b env env₁ env₂ _ _ iha ihb =>
    intro m s r he hfr hc h
    simp only [Stmt.code, List.length_append] at h
    rw [← St.after_after s _ _ env₁] at h
    obtain ⟨n, h⟩ := ihb (s.after_env _ _) (hfr.after _ _) hc.right h
    exact iha he hfr hc.left h
  | storeVars h1 h2 h3 =>
    intro m s r he hfr hc h
    subst he
    simp only [Stmt.code, List.length_append, List.length_singleton] at h
    exact ⟨_, (loopC_storeVars hf hfr hc).mpr ⟨_, m, rfl, by rw [h1, h2]; exact h3, h⟩⟩
  | storeSignals h1 h2 h3 =>
    intro m s r he hfr hc h
    subst he
    simp only [Stmt.code, List.length_append, List.length_singleton] at h
    exact ⟨_, (loopC_storeSignals hf hfr hc).mpr ⟨_, m, rfl, by rw [h1, h2]; exact h3, h⟩⟩
  | @storeInput mapped code k src loc cmp env vs i j c off sig sig' subs h0 hv hw hu h2 h3 h4 h5 =>
    intro m s r he hfr hc h
    subst he
    obtain ⟨m', h5⟩ := h5.fuel
    simp only [Stmt.code, List.length_append, List.length_singleton] at h
    have h := loopC_mono hf (le_max_left m m') h
    have h5 := h5.mono (SubOf.mono hf (le_max_right m m'))
    have hc1 : CodeAt (s.put src.code.length (.fld k) vs).body (s.put src.code.length (.fld k) vs).ip
        (loc.code ++ (cmp.code ++ [.inputSubComp mapped code k])) := hc.right
    have hc2 : CodeAt ((s.put src.code.length (.fld k) vs).put loc.code.length .idx i).body
        ((s.put src.code.length (.fld k) vs).put loc.code.length .idx i).ip (cmp.code ++ [.inputSubComp mapped code k]) := hc1.right
    exact ⟨_, (loopC_expr hf src hfr hc.left).mpr ⟨vs, _, rfl, hv, (loopC_expr hf loc (hfr.put _ _ _) hc1.left).mpr
      ⟨i, _, rfl, hw, (loopC_expr hf cmp ((hfr.put _ _ _).put _ _ _) hc2.left).mpr ⟨j, _, rfl, hu,
        (loopC_step hf hc2.right.head (by simp)).mpr ⟨max m m', _, rfl, rfl,
          (step_input hf hfr (eval_length hf src hv)).mpr ⟨h0, _, _, _, _, _, h2, h3, h4, h5, rfl⟩, h⟩⟩⟩⟩⟩
  | @create symbol offset jump k env decl sig subs hk hd h2 =>
    intro m s r he hfr hc h
    subst he
    obtain ⟨m', h2⟩ := CreateRel.fuel hf h2
    have h := loopC_mono hf (le_max_left m m') h
    have h2 := h2.mono (SubOf.mono hf (le_max_right m m'))
    have hc1 : CodeAt s.body s.ip ((Expr.lit offset).code ++ ((Expr.lit jump).code ++ [.createCmp symbol k])) := hc
    have hg : guard D ok ((s.put 1 .idx offset).put 1 .idx jump) (.createCmp symbol k) = .ok () := if_pos hk
    exact ⟨_, (loopC_expr hf (.lit offset) hfr hc1.left).mpr ⟨offset, _, rfl, rfl,
      (loopC_expr hf (.lit jump) (hfr.put _ _ _) (s := s.put 1 .idx offset) hc1.right.left).mpr ⟨jump, _, rfl, rfl,
        (loopC_step hf (s := (s.put 1 .idx offset).put 1 .idx jump) hc1.right.right.head (by simp)).mpr
          ⟨max m m', _, rfl, hg, (step_create hf hfr).mpr ⟨decl, sig, subs, hd, h2, rfl⟩, h⟩⟩⟩⟩
  | @iteShared c t e env env₁ env₂ x last acc nx acc' i rst hx hsh hl hacc _ he₁ hnx hacc' _ he₂ iht ihe =>
    intro m s r he hfr hc h
    subst he
    subst hl
    have hc1 : CodeAt s.body (s.ip + c.code.length + 1) _ := hc.right.tail
    have hc2 : CodeAt s.body (s.ip + c.code.length + 1 + t.code.length) _ := hc1.right
    have hc3 : CodeAt s.body (s.ip + c.code.length + 1 + t.code.length + 1) _ := hc2.tail
    simp only [Stmt.code, List.length_append, List.length_cons, List.length_nil] at h
    rw [show c.code.length + (t.code.length + (e.code.length + (0 + 1) + 1) + 1) =
      c.code.length + 1 + t.code.length + 1 + e.code.length + 1 by omega] at h
    have h := loopC_back hf (s := s.after (c.code.length + 1 + t.code.length + 1 + e.code.length) env₂)
      (by simpa only [St.after, Nat.add_assoc] using hc3.right.head) (by simp) rfl
      (fun _ => step_endFalsy (by exact he₂)) (loopC_after h)
    obtain ⟨n, h⟩ := ihe (s := s.after (c.code.length + 1 + t.code.length + 1) _) (St.after_env _ _ _) (hfr.after _ _)
      (by simpa only [St.after, Nat.add_assoc] using hc3.left) (loopC_after h)
    have h := loopC_back hf (s := s.after (c.code.length + 1 + t.code.length) env₁)
      (by simpa only [St.after, Nat.add_assoc] using hc2.head) (by simp) rfl
      (fun _ => by
        rw [step_endTruthy (by exact he₁), hnx]
        show (D.bin _ _ _ >>= _) = _
        erw [hacc']
        rfl) (loopC_after h)
    obtain ⟨n, h⟩ := iht (s := s.after (c.code.length + 1) _) (St.after_env _ _ _) (hfr.after _ _)
      (by simpa only [St.after, Nat.add_assoc] using hc1.left) (loopC_after h)
    refine ⟨_, (loopC_cond hf hfr hc (by simp)).mpr ⟨x, n, _, rfl, hx, guard_ite (i := e.code.length + 1) ?_, ?_, h⟩⟩
    · convert hc2.head using 2
      omega
    · rw [step_branch hfr, hsh]
      show (D.bin _ _ _ >>= _) = _
      erw [hacc]
      rfl
  | @iteTrue c t e env env₁ x rst hx hsh hz _ he₁ iht =>
    intro m s r he hfr hc h
    subst he
    have hc1 : CodeAt s.body (s.ip + c.code.length + 1) _ := hc.right.tail
    have hc2 : CodeAt s.body (s.ip + c.code.length + 1 + t.code.length) _ := hc1.right
    simp only [Stmt.code, List.length_append, List.length_cons, List.length_nil] at h
    rw [show c.code.length + (t.code.length + (e.code.length + (0 + 1) + 1) + 1) =
      c.code.length + 1 + t.code.length + max 1 (e.code.length + 2) by omega] at h
    have h := loopC_back hf (s := s.after (c.code.length + 1 + t.code.length) env₁)
      (by simpa only [St.after, Nat.add_assoc] using hc2.head) (by simp) rfl
      (fun _ => step_endTruthy_pub (by exact he₁) _) (loopC_after h)
    obtain ⟨n, h⟩ := iht (s := s.after (c.code.length + 1) _) (St.after_env _ _ _) (hfr.after _ _)
      (by simpa only [St.after, Nat.add_assoc] using hc1.left) (loopC_after h)
    refine ⟨_, (loopC_cond hf hfr hc (by simp)).mpr ⟨x, n, _, rfl, hx, guard_ite (i := e.code.length + 1) ?_, ?_, h⟩⟩
    · convert hc2.head using 2
      omega
    · rw [step_branch hfr, hsh]
      show (D.isZero _ _ >>= _) = _
      rw [hz]
      rfl
  | @iteFalse c t e env env₁ x i rst hx hsh hz _ he₁ ihe =>
    intro m s r he hfr hc h
    subst he
    have hc1 : CodeAt s.body (s.ip + c.code.length + 1) _ := hc.right.tail
    have hc2 : CodeAt s.body (s.ip + c.code.length + 1 + t.code.length) _ := hc1.right
    have hc3 : CodeAt s.body (s.ip + (c.code.length + (t.code.length + 2))) (e.code ++ [.endFalsyBranch]) := by
      convert hc2.tail using 1
      omega
    simp only [Stmt.code, List.length_append, List.length_cons, List.length_nil] at h
    rw [show c.code.length + (t.code.length + (e.code.length + (0 + 1) + 1) + 1) =
      c.code.length + (t.code.length + 2) + e.code.length + 1 by omega] at h
    have h := loopC_back hf (s := s.after (c.code.length + (t.code.length + 2) + e.code.length) env₁)
      (by simpa only [St.after, Nat.add_assoc] using hc3.right.head) (by simp) rfl
      (fun _ => step_endFalsy (by exact he₁)) (loopC_after h)
    obtain ⟨n, h⟩ := ihe (s := s.after (c.code.length + (t.code.length + 2)) _) (St.after_env _ _ _) (hfr.after _ _)
      hc3.left (loopC_after h)
    refine ⟨_, (loopC_cond hf hfr hc (by simp)).mpr ⟨x, n, _, rfl, hx, guard_ite (i := e.code.length + 1) ?_, ?_, h⟩⟩
    · convert hc2.head using 2
      omega
    · rw [step_branch hfr, hsh]
      show (D.isZero _ _ >>= _) = _
      rw [hz]
      rfl
  | @ifShared c t env env₁ x last acc hx hsh hl hacc _ he₁ iht =>
    intro m s r he hfr hc h
    subst he
    subst hl
    have hc1 : CodeAt s.body (s.ip + c.code.length + 1) _ := hc.right.tail
    have hc2 : CodeAt s.body (s.ip + c.code.length + 1 + t.code.length) _ := hc1.right
    simp only [Stmt.code, List.length_append, List.length_cons, List.length_nil] at h
    rw [show c.code.length + (t.code.length + (0 + 1) + 1) = c.code.length + 1 + t.code.length + 1 by omega] at h
    have h := loopC_back hf (s := s.after (c.code.length + 1 + t.code.length) env₁)
      (by simpa only [St.after, Nat.add_assoc] using hc2.head) (by simp) rfl
      (fun _ => step_endTruthy_zero (by exact he₁)) (loopC_after h)
    obtain ⟨n, h⟩ := iht (s := s.after (c.code.length + 1) _) (St.after_env _ _ _) (hfr.after _ _)
      (by simpa only [St.after, Nat.add_assoc] using hc1.left) (loopC_after h)
    refine ⟨_, (loopC_cond hf hfr hc (by simp)).mpr ⟨x, n, _, rfl, hx, (guard_ifThen hf hfr ?_ hsh (z := true) (by simp)).mpr (by simp), ?_, h⟩⟩
    · convert hc2.head using 2
      omega
    · rw [step_branch hfr, hsh]
      show (D.bin _ _ _ >>= _) = _
      erw [hacc]
      rfl
  | @ifTrue c t env env₁ x rst hx hsh hz _ he₁ iht =>
    intro m s r he hfr hc h
    subst he
    have hc1 : CodeAt s.body (s.ip + c.code.length + 1) _ := hc.right.tail
    have hc2 : CodeAt s.body (s.ip + c.code.length + 1 + t.code.length) _ := hc1.right
    simp only [Stmt.code, List.length_append, List.length_cons, List.length_nil] at h
    rw [show c.code.length + (t.code.length + (0 + 1) + 1) = c.code.length + 1 + t.code.length + max 1 0 by omega] at h
    have h := loopC_back hf (s := s.after (c.code.length + 1 + t.code.length) env₁)
      (by simpa only [St.after, Nat.add_assoc] using hc2.head) (by simp) rfl
      (fun _ => step_endTruthy_pub (by exact he₁) _) (loopC_after h)
    obtain ⟨n, h⟩ := iht (s := s.after (c.code.length + 1) _) (St.after_env _ _ _) (hfr.after _ _)
      (by simpa only [St.after, Nat.add_assoc] using hc1.left) (loopC_after h)
    refine ⟨_, (loopC_cond hf hfr hc (by simp)).mpr ⟨x, n, _, rfl, hx, (guard_ifThen hf hfr ?_ hsh fun _ => hz).mpr (by simp), ?_, h⟩⟩
    · convert hc2.head using 2
      omega
    · rw [step_branch hfr, hsh]
      show (D.isZero _ _ >>= _) = _
      rw [hz]
      rfl
  | @ifFalse c t env x hx hsh hz hk =>
    intro m s r he hfr hc h
    subst he
    have hc1 : CodeAt s.body (s.ip + c.code.length + 1) _ := hc.right.tail
    have hc2 : CodeAt s.body (s.ip + c.code.length + 1 + t.code.length) _ := hc1.right
    simp only [Stmt.code, List.length_append, List.length_cons, List.length_nil] at h
    rw [show c.code.length + (t.code.length + (0 + 1) + 1) = c.code.length + (t.code.length + 2) by omega] at h
    refine ⟨_, (loopC_cond hf hfr hc (by simp)).mpr ⟨x, m, _, rfl, hx, (guard_ifThen hf hfr ?_ hsh fun _ => hz).mpr fun _ _ => hk, ?_, h⟩⟩
    · convert hc2.head using 2
      omega
    · rw [step_branch hfr, hsh]
      show (D.isZero _ _ >>= _) = _
      rw [hz]
      rfl
  | @loopDone c b env x hx hz =>
    intro m s r he hfr hc h
    subst he
    simp only [Stmt.code, List.length_append, List.length_cons, List.length_nil] at h
    refine ⟨_, (loopC_cond hf hfr hc (by simp)).mpr ⟨x, m, _, rfl, hx, rfl, ?_, h⟩⟩
    rw [step_jumpIfFalse hfr, hz]
    rfl
  | @loopStep c b env env₁ env₂ x hx hz _ _ ihb ihl =>
    intro m s r he hfr hc h
    subst he
    have hc1 : CodeAt s.body (s.ip + c.code.length + 1) _ := hc.right.tail
    obtain ⟨n, h⟩ := ihl (s := s.after 0 env₁) rfl (hfr.after _ _) hc (by rw [St.after_after, Nat.zero_add]; exact h)
    have h := loopC_back hf (s := s.after (b.code.length + c.code.length + 1) env₁) (op := .jumpBack (b.code.length + c.code.length + 1))
      (by
        have := hc1.right.head
        simp only [St.after]
        convert this using 2
        omega) (by simp) rfl (fun _ => step_jumpBack _) h
    rw [show b.code.length + c.code.length + 1 = c.code.length + 1 + b.code.length by omega] at h
    obtain ⟨n, h⟩ := ihb (s := s.after (c.code.length + 1) s.env) rfl (hfr.after _ _)
      (by simpa only [St.after, Nat.add_assoc] using hc1.left) (loopC_after h)
    refine ⟨_, (loopC_cond hf hfr hc (by simp)).mpr ⟨x, n, _, rfl, hx, rfl, ?_, h⟩⟩
    rw [step_jumpIfFalse hfr, hz]
    rfl
  | @assert line e env x hx hz =>
    intro m s r he hfr hc h
    subst he
    simp only [Stmt.code, List.length_append, List.length_cons, List.length_nil] at h
    refine ⟨_, (loopC_cond hf hfr hc (by simp)).mpr ⟨x, m, _, rfl, hx, rfl, ?_, h⟩⟩
    rw [step_assert hfr, hz]
    rfl
  | @log e env x o hx hz =>
    intro m s r he hfr hc h
    subst he
    simp only [Stmt.code, List.length_append, List.length_cons, List.length_nil] at h
    refine ⟨_, (loopC_cond hf hfr hc (by simp)).mpr ⟨x, m, _, rfl, hx, rfl, ?_, h⟩⟩
    rw [step_log hfr, hz]
    rfl
  | @logString k env hk =>
    intro m s r he hfr hc h
    subst he
    exact ⟨_, loopC_back hf hc.head (by simp) rfl (fun _ => by rw [step, if_neg (by omega)]; rfl) h⟩
  | logFlush =>
    intro m s r he hfr hc h
    subst he
    exact ⟨_, loopC_back hf hc.head (by simp) rfl (fun _ => rfl) h⟩

end

end Verif.CircomVm
