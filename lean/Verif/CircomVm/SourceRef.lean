import Verif.CircomVm.SourceRun

/-!
# Secret branches

A statement with marked values does what it does with values in the clear, if the branch is taken; otherwise it changes
nothing.
-/

namespace Verif.CircomVm

open Rep3

variable {p : Nat} [Fact p.Prime] [HasSqrt (ZMod p)] {c : RefCfg} {ctx : Ctx (ZMod p)}

/-- The value in the clear. -/
def Ty.clear : (t : Ty) → t.Val (RefVal p) → t.Val (ZMod p)
  | .idx, k => k
  | .fld _, l => List.map VmVal.val l

/-- There are no secret branches, or their condition holds. -/
def Active (ifs : List (IfCtx (RefVal p))) : Prop := ((sharedCond ifs).getD (.pub 1)).val = 1

/-- The condition of the secret branches does not hold. -/
def Untaken (ifs : List (IfCtx (RefVal p))) : Prop := ∃ a, sharedCond ifs = some a ∧ a.val = 0

/-- A template of the program. -/
def Known (ctx : Ctx (ZMod p)) (d : TemplateDecl) : Prop := ∃ name, ctx.templDecls name = some d

/-- Marked values and values in the clear. -/
structure EnvRel (ctx : Ctx (ZMod p)) (e : Env (RefVal p)) (q : Env (ZMod p)) : Prop where
  vars : q.vars = e.vars.map VmVal.val
  signals : q.signals = e.signals.map VmVal.val
  subs : q.subs = e.subs
  offset : q.offset = e.offset
  ifs : ∀ i ∈ q.ifs, i = .pub
  known : ∀ s ∈ e.subs, Known ctx s.decl

omit [Fact p.Prime] [HasSqrt (ZMod p)] in
theorem sharedCond_pubs {V : Type} {l : List (IfCtx V)} (h : ∀ i ∈ l, i = .pub) : sharedCond l = none := by
  have := sharedCond_append (a := []) h
  rwa [List.append_nil] at this

theorem guardDivisor_clear {op : BinOp} {ifs : List (IfCtx (RefVal p))} (ha : Active ifs) {b d : RefVal p}
    (h : guardDivisor (ref p c) op ifs b = .ok d) : d.val = b.val := by
  unfold guardDivisor at h
  split at h
  · rename_i a hs
    have := refCmux_val h
    have h1 : a.val = 1 := by simpa [Active, hs] using ha
    rw [h1] at this
    obtain ⟨_, -, h2⟩ := bind_ok (this : assertBit _ >>= (fun _ => .ok (if (1 : ZMod p) = 1 then _ else _)) = Except.ok _)
    rw [if_pos rfl] at h2
    exact (ok_inj.mp h2).symm
  · rw [ok_inj.mp h]

theorem guardDivisor_pub {op : BinOp} {ifs : List (IfCtx (ZMod p))} (hs : sharedCond ifs = none) (b : ZMod p) :
    guardDivisor (plain p) op ifs b = .ok b := by
  unfold guardDivisor
  rw [hs]
  cases op <;> rfl

theorem eqFold_clear : ∀ (l l' : List (RefVal p)) {a v : RefVal p}, (List.zip l l').foldlM (eqStep (ref p c)) a = .ok v →
    (List.zip (l.map VmVal.val) (l'.map VmVal.val)).foldlM (eqStep (plain p)) a.val = .ok v.val
  | [], _, a, v, h => by obtain rfl := ok_inj.mp h; rfl
  | _ :: _, [], a, v, h => by obtain rfl := ok_inj.mp h; rfl
  | x :: l, y :: l', a, v, h => by
    simp only [List.zip_cons_cons, List.foldlM_cons, List.map_cons, eqStep] at h ⊢
    obtain ⟨a', h1, h⟩ := bind_ok h
    obtain ⟨z, h0, h1⟩ := bind_ok h1
    refine Except.bind_ok_iff.mpr ⟨a'.val, Except.bind_ok_iff.mpr ⟨z.val, refBin_val h0, refBin_val h1⟩, eqFold_clear l l' h⟩

theorem toIndex_clear {a : RefVal p} {k : Nat} (h : (ref p c).toIndex a = .ok k) : (plain p).toIndex a.val = .ok k := by
  cases a with
  | pub => exact h
  | arith => cases h

theorem neg_clear {a w : RefVal p} (h : (ref p c).neg a = .ok w) : (plain p).neg a.val = .ok w.val := by
  cases a <;> obtain rfl := ok_inj.mp h <;> rfl

omit [Fact p.Prime] [HasSqrt (ZMod p)] in
theorem readSlice_clear {l : List (RefVal p)} {k n : Nat} {v : List (RefVal p)} (h : readSlice l k n = some v) :
    readSlice (l.map VmVal.val) k n = some (v.map VmVal.val) := by
  rw [readSlice_map VmVal.val l k n, h]; rfl

omit [Fact p.Prime] [HasSqrt (ZMod p)] in
theorem writeSlice_clear {l : List (RefVal p)} {k : Nat} {x v : List (RefVal p)} (h : writeSlice l k x = some v) :
    writeSlice (l.map VmVal.val) k (x.map VmVal.val) = some (v.map VmVal.val) := by
  rw [writeSlice_map VmVal.val l k x, h]; rfl

theorem eqFold_clear' (l l' : List (RefVal p)) {a v : RefVal p}
    (h : (List.zip l.reverse l'.reverse).foldlM (eqStep (ref p c)) a = .ok v) :
    (List.zip (l.map VmVal.val).reverse (l'.map VmVal.val).reverse).foldlM (eqStep (plain p)) a.val = .ok v.val := by
  have := eqFold_clear _ _ h
  rwa [List.map_reverse, List.map_reverse] at this

theorem outVal_clear {e : Env (RefVal p)} {q : Env (ZMod p)} (hq : EnvRel ctx e q) {mapped : Bool} {code n k j : Nat}
    {v : List (RefVal p)} (h : outVal (ref p c) mapped code n k j e = .ok v) :
    outVal (plain p) mapped code n k j q = .ok (v.map VmVal.val) := by
  have hf : ∀ {α : Type} e, (ref p c).fail (α := α) e = .error e := fun _ => rfl
  have hf' : ∀ {α : Type} e, (plain p).fail (α := α) e = .error e := fun _ => rfl
  obtain ⟨d, h3, h⟩ := bind_ok h
  obtain ⟨off, h4, h⟩ := bind_ok h
  unfold outVal
  rw [hq.signals, hq.subs]
  exact Except.bind_ok_iff.mpr ⟨d, (orFail_ok hf').mpr ((orFail_ok hf).mp h3), Except.bind_ok_iff.mpr
    ⟨off, (orFail_ok hf').mpr ((orFail_ok hf).mp h4), (orFail_ok hf').mpr (readSlice_clear ((orFail_ok hf).mp h))⟩⟩

theorem eval_clear {e : Env (RefVal p)} {q : Env (ZMod p)} (ha : Active e.ifs) (hq : EnvRel ctx e q) {t : Ty} (x : Expr t) :
    ∀ {v : t.Val (RefVal p)}, eval (ref p c) ctx e x = .ok v → eval (plain p) ctx q x = .ok (t.clear v) := by
  have hf : ∀ {α : Type} e, (ref p c).fail (α := α) e = .error e := fun _ => rfl
  have hf' : ∀ {α : Type} e, (plain p).fail (α := α) e = .error e := fun _ => rfl
  induction x with
  | const k =>
    intro v h
    obtain ⟨a, h1, h⟩ := bind_ok h
    obtain rfl := ok_inj.mp h
    exact Except.bind_ok_iff.mpr ⟨a, (orFail_ok hf').mpr ((orFail_ok hf).mp h1), rfl⟩
  | lit k =>
    intro v h
    obtain rfl := ok_inj.mp h
    rfl
  | vars n loc ih =>
    intro v h
    obtain ⟨k, h1, h⟩ := bind_ok h
    refine Except.bind_ok_iff.mpr ⟨k, ih h1, (orFail_ok hf').mpr ?_⟩
    rw [hq.vars]
    exact readSlice_clear ((orFail_ok hf).mp h)
  | signals n loc ih =>
    intro v h
    obtain ⟨k, h1, h⟩ := bind_ok h
    refine Except.bind_ok_iff.mpr ⟨k, ih h1, (orFail_ok hf').mpr ?_⟩
    rw [hq.signals, hq.offset]
    exact readSlice_clear ((orFail_ok hf).mp h)
  | output mapped code n loc cmp ih ih' =>
    intro v h
    obtain ⟨k, h1, h⟩ := bind_ok h
    obtain ⟨j, h2, h⟩ := bind_ok h
    exact Except.bind_ok_iff.mpr ⟨k, ih h1, Except.bind_ok_iff.mpr ⟨j, ih' h2, outVal_clear hq h⟩⟩
  | bin op a b iha ihb =>
    intro v h
    obtain ⟨x, h1, h⟩ := bind_ok h
    obtain ⟨y, h2, h⟩ := bind_ok h
    obtain ⟨u, w, d, z, rfl, rfl, h3, h4, rfl⟩ := binVal_ok hf h
    refine Except.bind_ok_iff.mpr ⟨_, iha h1, Except.bind_ok_iff.mpr ⟨_, ihb h2, ?_⟩⟩
    have h5 := refBin_val h4
    rw [guardDivisor_clear ha h3] at h5
    exact Except.bind_ok_iff.mpr ⟨_, guardDivisor_pub (sharedCond_pubs hq.ifs) _, Except.bind_ok_iff.mpr ⟨_, h5, rfl⟩⟩
  | neg a ih =>
    intro v h
    obtain ⟨x, h1, h⟩ := bind_ok h
    obtain ⟨u, w, rfl, h2, rfl⟩ := negVal_ok hf h
    exact Except.bind_ok_iff.mpr ⟨_, ih h1, Except.bind_ok_iff.mpr ⟨_, neg_clear h2, rfl⟩⟩
  | eq n a b iha ihb =>
    intro v h
    obtain ⟨x, h1, h⟩ := bind_ok h
    obtain ⟨y, h2, h⟩ := bind_ok h
    obtain ⟨w, h3, h⟩ := bind_ok h
    obtain rfl := ok_inj.mp h
    refine Except.bind_ok_iff.mpr ⟨_, iha h1, Except.bind_ok_iff.mpr ⟨_, ihb h2, Except.bind_ok_iff.mpr ⟨w.val, ?_, rfl⟩⟩⟩
    exact eqFold_clear' _ _ h3
  | toIndex a ih =>
    intro v h
    obtain ⟨x, h1, h⟩ := bind_ok h
    obtain ⟨u, rfl, h2⟩ := idxVal_ok hf h
    exact Except.bind_ok_iff.mpr ⟨_, ih h1, toIndex_clear h2⟩
  | add a b iha ihb =>
    intro v h
    obtain ⟨x, h1, h⟩ := bind_ok h
    obtain ⟨y, h2, h⟩ := bind_ok h
    obtain rfl := ok_inj.mp h
    exact Except.bind_ok_iff.mpr ⟨_, iha h1, Except.bind_ok_iff.mpr ⟨_, ihb h2, rfl⟩⟩
  | mul a b iha ihb =>
    intro v h
    obtain ⟨x, h1, h⟩ := bind_ok h
    obtain ⟨y, h2, h⟩ := bind_ok h
    obtain rfl := ok_inj.mp h
    exact Except.bind_ok_iff.mpr ⟨_, iha h1, Except.bind_ok_iff.mpr ⟨_, ihb h2, rfl⟩⟩

/-! ### Conditions -/

omit [HasSqrt (ZMod p)] in
theorem boolAnd_val {a b z : ZMod p} (h : plainBin .boolAnd a b = .ok z) : z = bit (decide (b.val = 1 ∧ a.val = 1)) := by
  simp only [plainBin] at h
  obtain ⟨l, h1, h⟩ := bind_ok h
  obtain ⟨r, h2, h⟩ := bind_ok h
  have e : ∀ {x : ZMod p} {k : Nat}, toUsize x = .ok k → k = x.val := by
    intro x k h
    unfold toUsize at h
    split at h
    · exact (ok_inj.mp h).symm
    · cases h
  rw [e h1, e h2] at h
  exact (ok_inj.mp h).symm

omit [HasSqrt (ZMod p)] in
theorem boolAnd_zero {b z : ZMod p} (h : plainBin .boolAnd 0 b = .ok z) : z = 0 := by
  rw [boolAnd_val h, ZMod.val_zero]
  simp [bit]

omit [HasSqrt (ZMod p)] in
theorem boolAnd_one {b z : ZMod p} (hb : IsBit b) (h : plainBin .boolAnd 1 b = .ok z) : z = b := by
  have hp := (Fact.out : p.Prime).one_lt
  rw [boolAnd_val h, ZMod.val_one'' (by omega)]
  rcases hb with rfl | rfl
  · simp [bit]
  · rw [ZMod.val_one'' (by omega)]; simp [bit]

theorem shared_arith {x : RefVal p} (h : (ref p c).isShared x = .ok true) : x.isArith = true := by
  have h' : (if x.isArith && !c.shared then refuse else .ok x.isArith) = Except.ok true := h
  split at h'
  · cases h'
  · exact ok_inj.mp h'

theorem cond_bit {last x acc : RefVal p} (hx : x.isArith = true) (h : (ref p c).bin .boolAnd last x = .ok acc) : IsBit x.val := by
  have h' : refBin c .boolAnd last x = .ok acc := h
  obtain ⟨h1, -⟩ := refBin_arith (by simp [hx]) h'
  simp only [supported, Bool.and_eq_true, decide_eq_true_eq] at h1
  exact h1.2

theorem boolNot_val {x n : RefVal p} (h : (ref p c).boolNot x = .ok n) : n.val = 1 - x.val := by
  cases x with
  | pub v =>
    obtain ⟨r, hr, rfl⟩ := map_ok (h : VmVal.pub <$> (plain p).boolNot v = .ok n)
    obtain ⟨-, -, h2⟩ := bind_ok (hr : (assertBit v >>= fun _ => .ok (1 - v)) = .ok r)
    exact (ok_inj.mp h2).symm
  | arith v =>
    have h' : (if IsBit v then .ok (.arith (1 - v)) else refuse) = Except.ok n := h
    split at h'
    · obtain rfl := ok_inj.mp h'; rfl
    · cases h'

theorem isZero_val {x : RefVal p} {allow z : Bool} (h : (ref p c).isZero x allow = .ok z) : z = decide (x.val = 0) := by
  have h' : (if x.isArith && !allow then .error (Err.err "allow_secret_inputs is false and input is shared")
    else .ok (decide (x.val = 0))) = Except.ok z := h
  split at h'
  · cases h'
  · exact (ok_inj.mp h').symm

/-! ### Assignments -/

theorem cmux_val {a t f z : RefVal p} (h : (ref p c).cmux a t f = .ok z) : z.val = if a.val = 1 then t.val else f.val := by
  obtain ⟨-, -, h2⟩ := bind_ok (refCmux_val h : (assertBit a.val >>= fun _ => .ok (if a.val = 1 then t.val else f.val)) = .ok z.val)
  exact (ok_inj.mp h2).symm

theorem mapM_cmux {a : RefVal p} : ∀ {news olds vals : List (RefVal p)}, news.length = olds.length →
    (news.zip olds).mapM (fun x => (ref p c).cmux a x.1 x.2) = .ok vals →
    vals.map VmVal.val = if a.val = 1 then news.map VmVal.val else olds.map VmVal.val
  | [], [], vals, _, h => by
    obtain rfl := ok_inj.mp h
    simp
  | x :: news, y :: olds, vals, hl, h => by
    rw [List.zip_cons_cons, List.mapM_cons] at h
    obtain ⟨z, h1, h⟩ := bind_ok h
    obtain ⟨zs, h2, h⟩ := bind_ok h
    obtain rfl := ok_inj.mp h
    have := mapM_cmux (by simpa using hl) h2
    simp only [List.map_cons, this, cmux_val h1]
    split <;> rfl

theorem mux_active {ifs : List (IfCtx (RefVal p))} (ha : Active ifs) {news olds vals : List (RefVal p)}
    (hl : news.length = olds.length) (h : muxAll (ref p c) ifs news olds = .ok vals) : vals.map VmVal.val = news.map VmVal.val := by
  unfold muxAll at h
  split at h
  · rw [ok_inj.mp h]
  · rename_i a hs
    rw [mapM_cmux hl h, if_pos]
    simpa [Active, hs] using ha

theorem mux_untaken {ifs : List (IfCtx (RefVal p))} (ha : Untaken ifs) {news olds vals : List (RefVal p)}
    (hl : news.length = olds.length) (h : muxAll (ref p c) ifs news olds = .ok vals) : vals.map VmVal.val = olds.map VmVal.val := by
  obtain ⟨a, hs, ha⟩ := ha
  unfold muxAll at h
  rw [hs] at h
  rw [mapM_cmux hl h, if_neg]
  rw [ha]
  exact zero_ne_one

omit [Fact p.Prime] [HasSqrt (ZMod p)] in
theorem readSlice_length {V : Type} {l v : List V} {k n : Nat} (h : readSlice l k n = some v) : v.length = n := by
  simp only [readSlice] at h
  split at h
  · obtain rfl := Option.some.inj h
    simp; omega
  · cases h

omit [Fact p.Prime] [HasSqrt (ZMod p)] in
theorem write_read {V : Type} {l v : List V} {k n : Nat} (h : readSlice l k n = some v) : writeSlice l k v = some l := by
  have hn := readSlice_length h
  simp only [readSlice] at h
  simp only [writeSlice, hn]
  split at h
  · rw [if_pos ‹_›]
    obtain rfl := Option.some.inj h
    congr 1
    rw [← List.drop_drop, List.append_assoc, List.take_append_drop, List.take_append_drop]
  · cases h

theorem assign_clear {ifs : List (IfCtx (RefVal p))} {qifs : List (IfCtx (ZMod p))} (ha : Active ifs)
    (hq : sharedCond qifs = none) {mem vs mem' : List (RefVal p)} {k : Nat} (h : assign (ref p c) ifs mem k vs = .ok mem') :
    assign (plain p) qifs (mem.map VmVal.val) k (vs.map VmVal.val) = .ok (mem'.map VmVal.val) := by
  have hf : ∀ {α : Type} e, (ref p c).fail (α := α) e = .error e := fun _ => rfl
  have hf' : ∀ {α : Type} e, (plain p).fail (α := α) e = .error e := fun _ => rfl
  unfold assign at h ⊢
  obtain ⟨olds, h1, h⟩ := bind_ok h
  obtain ⟨vals, h2, h⟩ := bind_ok h
  have h1 := (orFail_ok hf).mp h1
  refine Except.bind_ok_iff.mpr ⟨olds.map VmVal.val, (orFail_ok hf').mpr ?_, Except.bind_ok_iff.mpr
    ⟨(vs.map VmVal.val).reverse, by simp [muxAll, hq, pure, Except.pure], (orFail_ok hf').mpr ?_⟩⟩
  · rw [List.length_map]
    exact readSlice_clear h1
  · have h3 := mux_active ha (by simp [readSlice_length h1]) h2
    rw [List.map_reverse] at h3
    rw [← h3, ← List.map_reverse]
    exact writeSlice_clear ((orFail_ok hf).mp h)

theorem assign_untaken {ifs : List (IfCtx (RefVal p))} (ha : Untaken ifs) {mem vs mem' : List (RefVal p)} {k : Nat}
    (h : assign (ref p c) ifs mem k vs = .ok mem') : mem'.map VmVal.val = mem.map VmVal.val := by
  have hf : ∀ {α : Type} e, (ref p c).fail (α := α) e = .error e := fun _ => rfl
  unfold assign at h
  obtain ⟨olds, h1, h⟩ := bind_ok h
  obtain ⟨vals, h2, h⟩ := bind_ok h
  have h1 := (orFail_ok hf).mp h1
  have h3 := mux_untaken ha (by simp [readSlice_length h1]) h2
  have h4 := writeSlice_clear ((orFail_ok hf).mp h)
  rw [List.map_reverse, h3, List.map_reverse, List.reverse_reverse, write_read (readSlice_clear h1)] at h4
  exact (Option.some.inj h4).symm

/-! ### Statements -/

/-- Nothing changes. -/
structure Unchanged (e e' : Env (RefVal p)) : Prop where
  vars : e'.vars.map VmVal.val = e.vars.map VmVal.val
  signals : e'.signals.map VmVal.val = e.signals.map VmVal.val
  subs : e'.subs = e.subs
  offset : e'.offset = e.offset

/-- Outside of secret branches. -/
def noSecret {V : Type} (ifs : List (IfCtx V)) : Bool := (sharedCond ifs).isNone

theorem noSecret_ok {V : Type} (ifs : List (IfCtx V)) (h : noSecret ifs = true) : sharedCond ifs = none := by
  simpa [noSecret] using h

/-- A secret branch that is not taken changes nothing. -/
theorem Big.untaken {Sub : SubRun (RefVal p)} {s : Stmt} {e e' : Env (RefVal p)} (hb : Big (ref p c) ctx noSecret Sub s e e')
    (hu : Untaken e.ifs) : Unchanged e e' := by
  have hn : ∀ {ifs : List (IfCtx (RefVal p))}, Untaken ifs → sharedCond ifs = none → False := by
    rintro _ ⟨a, ha, -⟩ h
    rw [h] at ha; cases ha
  have same : ∀ {e : Env (RefVal p)}, Unchanged e e := ⟨rfl, rfl, rfl, rfl⟩
  have last : ∀ {e : Env (RefVal p)}, Untaken e.ifs → ∀ {v acc x y : RefVal p}, (ref p c).bin .boolAnd ((sharedCond e.ifs).getD (ref p c).one) v = .ok acc →
      Untaken (.shared x acc y :: e.ifs) := by
    rintro e ⟨a, ha, h0⟩ v acc x y h
    refine ⟨acc, rfl, ?_⟩
    rw [ha] at h
    have := refBin_val h
    rw [show ((some a).getD (ref p c).one).val = 0 from h0] at this
    exact boolAnd_zero this
  induction hb with
  | skip => exact same
  | seq h1 _ ih ih' =>
    have h2 := ih hu
    have h3 := ih' (by rw [(h1.leaks noSecret_ok).eq fun h => hn hu h]; exact hu)
    exact ⟨h3.vars.trans h2.vars, h3.signals.trans h2.signals, h3.subs.trans h2.subs, h3.offset.trans h2.offset⟩
  | storeVars h1 h2 h3 => exact ⟨assign_untaken hu h3, rfl, rfl, rfl⟩
  | storeSignals h1 h2 h3 => exact ⟨rfl, assign_untaken hu h3, rfl, rfl⟩
  | storeInput h0 => exact (hn hu h0).elim
  | create h1 => exact (hn hu (noSecret_ok _ h1)).elim
  | iteShared h1 h2 h3 h4 h5 h6 h7 h8 h9 h10 ih ih' =>
    subst h3
    have h2 := ih (last hu h4)
    have h3 := ih' (last hu h8)
    exact ⟨h3.vars.trans h2.vars, h3.signals.trans h2.signals, h3.subs.trans h2.subs, h3.offset.trans h2.offset⟩
  | iteTrue h1 h2 h3 _ h5 ih => have h := ih hu; exact ⟨h.1, h.2, h.3, h.4⟩
  | iteFalse h1 h2 h3 _ h5 ih => have h := ih hu; exact ⟨h.1, h.2, h.3, h.4⟩
  | ifShared h1 h2 h3 h4 _ h6 ih =>
    subst h3
    have h := ih (last hu h4); exact ⟨h.1, h.2, h.3, h.4⟩
  | ifTrue h1 h2 h3 _ h5 ih => have h := ih hu; exact ⟨h.1, h.2, h.3, h.4⟩
  | ifFalse h1 h2 h3 h4 => exact (hn hu (noSecret_ok _ h4)).elim
  | loopDone h1 h2 => exact same
  | loopStep h1 h2 h3 _ ih ih' =>
    have h2 := ih hu
    have h3 := ih' (by rw [(h3.leaks noSecret_ok).eq fun h => hn hu h]; exact hu)
    exact ⟨h3.vars.trans h2.vars, h3.signals.trans h2.signals, h3.subs.trans h2.subs, h3.offset.trans h2.offset⟩
  | assert h1 h2 => exact same
  | log h1 h2 => exact same
  | logString h => exact same
  | logFlush => exact same

omit [Fact p.Prime] [HasSqrt (ZMod p)] in
theorem EnvRel.of_unchanged {e e' : Env (RefVal p)} {q : Env (ZMod p)} (hq : EnvRel ctx e q) (h : Unchanged e e') :
    EnvRel ctx e' q :=
  ⟨hq.vars.trans h.vars.symm, hq.signals.trans h.signals.symm, hq.subs.trans h.subs.symm, hq.offset.trans h.offset.symm, hq.ifs,
    by rw [h.subs]; exact hq.known⟩

omit [Fact p.Prime] [HasSqrt (ZMod p)] in
/-- The open branches of the marked run do not matter. -/
theorem EnvRel.set_ifs {e : Env (RefVal p)} {q : Env (ZMod p)} (hq : EnvRel ctx e q) (ifs : List (IfCtx (RefVal p)))
    {ifs' : List (IfCtx (ZMod p))} (h : ∀ i ∈ ifs', i = .pub) : EnvRel ctx { e with ifs := ifs } { q with ifs := ifs' } :=
  ⟨hq.vars, hq.signals, hq.subs, hq.offset, h, hq.known⟩

omit [Fact p.Prime] [HasSqrt (ZMod p)] in
theorem CreateRel.clear {Sub : SubRun (RefVal p)} {Sub' : SubRun (ZMod p)}
    (hsub : ∀ d o a b, Known ctx d → Sub d o a b → Sub' d o (a.map VmVal.val) (b.map VmVal.val)) {decl : TemplateDecl}
    (hd : Known ctx decl) {l : List Nat} {sig sig' : List (RefVal p)} {subs subs' : List Comp}
    (hk : ∀ s ∈ subs, Known ctx s.decl) (h : CreateRel Sub decl l (sig, subs) (sig', subs')) :
    CreateRel Sub' decl l (sig.map VmVal.val, subs) (sig'.map VmVal.val, subs') ∧ ∀ s ∈ subs', Known ctx s.decl := by
  have hk' : ∀ {subs : List Comp}, (∀ s ∈ subs, Known ctx s.decl) → ∀ {o n : Nat} {r : Bool}, ∀ s ∈ subs ++ [⟨decl, o, n, r⟩], Known ctx s.decl := by
    intro subs hk o n r s hs
    rcases List.mem_append.mp hs with h | h
    · exact hk s h
    · rw [List.mem_singleton.mp h]; exact hd
  induction l generalizing sig subs with
  | nil =>
    simp only [CreateRel, Prod.mk.injEq] at h ⊢
    obtain ⟨rfl, rfl⟩ := h
    exact ⟨⟨rfl, rfl⟩, hk⟩
  | cons o r ih =>
    simp only [CreateRel] at h ⊢
    by_cases hi : decl.inputSignals = 0
    · simp only [if_pos hi] at h ⊢
      obtain ⟨sig₁, h1, h2⟩ := h
      obtain ⟨h3, h4⟩ := ih (hk' hk) h2
      exact ⟨⟨_, hsub _ _ _ _ hd h1, h3⟩, h4⟩
    · simp only [if_neg hi] at h ⊢
      exact ih (hk' hk) h

omit [Fact p.Prime] [HasSqrt (ZMod p)] in
theorem ProvideRel.clear {Sub : SubRun (RefVal p)} {Sub' : SubRun (ZMod p)}
    (hsub : ∀ d o a b, Known ctx d → Sub d o a b → Sub' d o (a.map VmVal.val) (b.map VmVal.val)) {sub n : Nat} {d : Comp}
    {sig sig' : List (RefVal p)} {subs subs' : List Comp} (hk : ∀ s ∈ subs, Known ctx s.decl) (hd : subs[sub]? = some d)
    (h : ProvideRel Sub sub d n (sig, subs) (sig', subs')) :
    ProvideRel Sub' sub d n (sig.map VmVal.val, subs) (sig'.map VmVal.val, subs') ∧ ∀ s ∈ subs', Known ctx s.decl := by
  have hd' : Known ctx d.decl := hk d (List.mem_of_getElem? hd)
  have hk' : ∀ {c : Comp}, c.decl = d.decl → ∀ s ∈ subs.set sub c, Known ctx s.decl := by
    intro c hc s hs
    rcases List.mem_or_eq_of_mem_set hs with h | rfl
    · exact hk s h
    · rw [hc]; exact hd'
  simp only [ProvideRel] at h ⊢
  by_cases hi : d.provided + n = d.decl.inputSignals
  · simp only [if_pos hi] at h ⊢
    obtain ⟨h0, sig₁, h1, h2⟩ := h
    obtain ⟨rfl, rfl⟩ := Prod.mk.inj h2
    exact ⟨⟨h0, _, hsub _ _ _ _ hd' h1, rfl⟩, hk' rfl⟩
  · simp only [if_neg hi] at h ⊢
    obtain ⟨rfl, rfl⟩ := Prod.mk.inj h
    exact ⟨rfl, hk' rfl⟩

/-- A statement outside of secret branches, or within ones that are taken. -/
theorem Big.clear {Sub : SubRun (RefVal p)} {Sub' : SubRun (ZMod p)}
    (hsub : ∀ d o a b, Known ctx d → Sub d o a b → Sub' d o (a.map VmVal.val) (b.map VmVal.val)) {s : Stmt}
    {e e' : Env (RefVal p)} (hb : Big (ref p c) ctx noSecret Sub s e e') (ha : Active e.ifs) {q : Env (ZMod p)}
    (hq : EnvRel ctx e q) : ∃ q', Big (plain p) ctx noSecret Sub' s q q' ∧ EnvRel ctx e' q' := by
  have cons : ∀ {l : List (IfCtx (ZMod p))}, (∀ i ∈ l, i = .pub) → ∀ i ∈ IfCtx.pub :: l, i = .pub := by
    intro l h i hi
    rcases List.mem_cons.mp hi with rfl | hi
    · rfl
    · exact h i hi
  have oks : ∀ {l : List (IfCtx (ZMod p))}, (∀ i ∈ l, i = .pub) → noSecret l = true := by
    intro l h
    simp [noSecret, sharedCond_pubs h]
  have act : ∀ {e : Env (RefVal p)}, Active e.ifs → ∀ {v acc x y : RefVal p}, IsBit v.val →
      (ref p c).bin .boolAnd ((sharedCond e.ifs).getD (ref p c).one) v = .ok acc → acc.val = v.val := by
    intro e ha v acc x y hv h
    have := refBin_val h
    rw [show ((sharedCond e.ifs).getD (ref p c).one).val = 1 from ha] at this
    exact boolAnd_one hv this
  have shared : ∀ {l : List (IfCtx (RefVal p))} {x acc y : RefVal p}, acc.val = 1 → Active (.shared x acc y :: l) :=
    fun h => h
  have leak : ∀ {e e' : Env (RefVal p)} {s}, Big (ref p c) ctx noSecret Sub s e e' → Active e.ifs → Active e'.ifs := by
    intro e e' s h ha
    unfold Active
    rw [(h.leaks noSecret_ok).shared]
    exact ha
  have unt : ∀ {l : List (IfCtx (RefVal p))} {x acc y : RefVal p}, acc.val = 0 → Untaken (.shared x acc y :: l) :=
    fun h => ⟨_, rfl, h⟩
  have pop : ∀ {s : Stmt} {q q' : Env (ZMod p)} {l}, q.ifs = .pub :: l → Big (plain p) ctx noSecret Sub' s q q' →
      (∀ i ∈ q'.ifs, i = .pub) → ∃ r, q'.ifs = .pub :: r ∧ ∀ i ∈ r, i = .pub := by
    intro s q q' l h hb hp
    have := hb.leaks noSecret_ok
    rw [h] at this
    obtain ⟨r, hr, -⟩ := this.pop
    exact ⟨r, hr, fun i hi => hp i (by rw [hr]; exact List.mem_cons_of_mem _ hi)⟩
  induction hb generalizing q with
  | skip => exact ⟨q, .skip, hq⟩
  | seq h1 _ ih ih' =>
    obtain ⟨q₁, hb₁, hq₁⟩ := ih ha hq
    obtain ⟨q₂, hb₂, hq₂⟩ := ih' (leak h1 ha) hq₁
    exact ⟨q₂, .seq hb₁ hb₂, hq₂⟩
  | storeVars h1 h2 h3 =>
    have h4 := assign_clear ha (sharedCond_pubs hq.ifs) h3
    rw [← hq.vars] at h4
    exact ⟨_, .storeVars (eval_clear ha hq _ h1) (eval_clear ha hq _ h2) h4, rfl, hq.signals, hq.subs, hq.offset, hq.ifs, hq.known⟩
  | storeSignals h1 h2 h3 =>
    have h4 := assign_clear ha (sharedCond_pubs hq.ifs) h3
    rw [← hq.signals, ← hq.offset] at h4
    exact ⟨_, .storeSignals (eval_clear ha hq _ h1) (eval_clear ha hq _ h2) h4, hq.vars, rfl, hq.subs, hq.offset, hq.ifs, hq.known⟩
  | storeInput h0 h1 h2 h3 h4 h5 h6 h7 =>
    obtain ⟨h8, h9⟩ := h7.clear hsub hq.known h4
    have h6 := writeSlice_clear h6
    rw [← hq.signals] at h6
    rw [← hq.subs] at h4 h8
    exact ⟨_, .storeInput (sharedCond_pubs hq.ifs) (eval_clear ha hq _ h1) (eval_clear ha hq _ h2) (eval_clear ha hq _ h3) h4 h5 h6 h8,
      hq.vars, rfl, rfl, hq.offset, hq.ifs, h9⟩
  | create h1 h2 h3 =>
    obtain ⟨h8, h9⟩ := h3.clear hsub ⟨_, h2⟩ hq.known
    rw [← hq.signals, ← hq.subs, ← hq.offset] at h8
    exact ⟨_, .create (oks hq.ifs) h2 h8, hq.vars, rfl, rfl, hq.offset, hq.ifs, h9⟩
  | @iteShared x t f e e₁ e₂ v last acc n acc' i r h1 h2 h3 h4 h5 h6 h7 h8 h9 h10 ih ih' =>
    subst h3
    have hbit := cond_bit (shared_arith h2) h4
    have h1' := eval_clear ha hq _ h1
    rcases hbit with hv | hv
    · have hu := h5.untaken (unt ((act ha (x := v) (y := v) (.inl hv) h4).trans hv))
      have hacc : acc'.val = 1 := by
        have := act ha (x := v) (y := v) (.inr (by rw [boolNot_val h7, hv, sub_zero])) h8
        rw [this, boolNot_val h7, hv, sub_zero]
      have hq₁ : EnvRel ctx { e₁ with ifs := .shared ((sharedCond e.ifs).getD (ref p c).one) acc' v :: e.ifs } { q with ifs := .pub :: q.ifs } :=
        ((hq.set_ifs _ hq.ifs).of_unchanged hu).set_ifs _ (cons hq.ifs)
      obtain ⟨q₂, hb₂, hq₂⟩ := ih' (shared hacc) hq₁
      obtain ⟨l, hl, hl'⟩ := pop rfl hb₂ hq₂.ifs
      exact ⟨_, .iteFalse h1' rfl (by show Except.ok (decide (v.val = 0)) = _; rw [hv]; simp) hb₂ hl, hq₂.set_ifs _ hl'⟩
    · obtain ⟨q₁, hb₁, hq₁⟩ := ih (shared ((act ha (x := v) (y := v) (.inr hv) h4).trans hv)) (hq.set_ifs _ (cons hq.ifs))
      have hacc : acc'.val = 0 := by
        have h0 : n.val = 0 := by rw [boolNot_val h7, hv, sub_self]
        have := act ha (x := v) (y := v) (.inl h0) h8
        rw [this, h0]
      have hu := h9.untaken (unt hacc)
      obtain ⟨l, hl, hl'⟩ := pop rfl hb₁ hq₁.ifs
      refine ⟨_, .iteTrue h1' rfl (by show Except.ok (decide (v.val = 0)) = _; rw [hv]; simp) hb₁ hl, ?_⟩
      exact ((hq₁.set_ifs _ hq₁.ifs).of_unchanged hu).set_ifs _ hl'
  | iteTrue h1 h2 h3 _ h5 ih =>
    obtain ⟨q₁, hb₁, hq₁⟩ := ih ha (hq.set_ifs _ (cons hq.ifs))
    obtain ⟨l, hl, hl'⟩ := pop rfl hb₁ hq₁.ifs
    exact ⟨_, .iteTrue (eval_clear ha hq _ h1) rfl (congrArg Except.ok (isZero_val h3).symm) hb₁ hl, hq₁.set_ifs _ hl'⟩
  | iteFalse h1 h2 h3 _ h5 ih =>
    obtain ⟨q₁, hb₁, hq₁⟩ := ih ha (hq.set_ifs _ (cons hq.ifs))
    obtain ⟨l, hl, hl'⟩ := pop rfl hb₁ hq₁.ifs
    exact ⟨_, .iteFalse (eval_clear ha hq _ h1) rfl (congrArg Except.ok (isZero_val h3).symm) hb₁ hl, hq₁.set_ifs _ hl'⟩
  | @ifShared x t e e₁ v last acc h1 h2 h3 h4 h5 h6 ih =>
    subst h3
    have hbit := cond_bit (shared_arith h2) h4
    have h1' := eval_clear ha hq _ h1
    rcases hbit with hv | hv
    · have hu := h5.untaken (unt ((act ha (x := v) (y := v) (.inl hv) h4).trans hv))
      exact ⟨_, .ifFalse h1' rfl (by show Except.ok (decide (v.val = 0)) = _; rw [hv]; simp) (oks hq.ifs),
        ((hq.set_ifs _ hq.ifs).of_unchanged hu).set_ifs _ (cons hq.ifs)⟩
    · obtain ⟨q₁, hb₁, hq₁⟩ := ih (shared ((act ha (x := v) (y := v) (.inr hv) h4).trans hv)) (hq.set_ifs _ (cons hq.ifs))
      obtain ⟨l, hl, hl'⟩ := pop rfl hb₁ hq₁.ifs
      exact ⟨_, .ifTrue h1' rfl (by show Except.ok (decide (v.val = 0)) = _; rw [hv]; simp) hb₁ hl, hq₁.set_ifs _ hl'⟩
  | ifTrue h1 h2 h3 _ h5 ih =>
    obtain ⟨q₁, hb₁, hq₁⟩ := ih ha (hq.set_ifs _ (cons hq.ifs))
    obtain ⟨l, hl, hl'⟩ := pop rfl hb₁ hq₁.ifs
    exact ⟨_, .ifTrue (eval_clear ha hq _ h1) rfl (congrArg Except.ok (isZero_val h3).symm) hb₁ hl, hq₁.set_ifs _ hl'⟩
  | ifFalse h1 h2 h3 h4 =>
    exact ⟨_, .ifFalse (eval_clear ha hq _ h1) rfl (congrArg Except.ok (isZero_val h3).symm) (oks hq.ifs), hq.set_ifs _ (cons hq.ifs)⟩
  | loopDone h1 h2 => exact ⟨q, .loopDone (eval_clear ha hq _ h1) (congrArg Except.ok (isZero_val h2).symm), hq⟩
  | loopStep h1 h2 h3 _ ih ih' =>
    obtain ⟨q₁, hb₁, hq₁⟩ := ih ha hq
    obtain ⟨q₂, hb₂, hq₂⟩ := ih' (leak h3 ha) hq₁
    exact ⟨q₂, .loopStep (eval_clear ha hq _ h1) (congrArg Except.ok (isZero_val h2).symm) hb₁ hb₂, hq₂⟩
  | assert h1 h2 => exact ⟨q, .assert (eval_clear ha hq _ h1) (congrArg Except.ok (isZero_val h2).symm), hq⟩
  | log h1 h2 => exact ⟨q, .log (eval_clear ha hq _ h1) rfl, hq⟩
  | logString h => exact ⟨q, .logString h, hq⟩
  | logFlush => exact ⟨q, .logFlush, hq⟩

/-! ### Components -/

/-- The reference driver that refuses secret branches, except for that. -/
theorem ref_but : ref p c = { ref p ⟨false, c.randomized⟩ with isShared := (ref p c).isShared } := by
  have h : refBin (p := p) c = refBin ⟨false, c.randomized⟩ := by
    funext op a b
    cases a <;> cases b <;> cases op <;> rfl
  unfold ref
  rw [h]

/-- A marked value with its value in the clear. -/
def clearW (v : RefVal p) : RelW (Clear (p := p)) := ⟨fun _ => v.val, v, rfl⟩

omit [Fact p.Prime] [HasSqrt (ZMod p)] in
theorem clearW_right (l : List (RefVal p)) : (l.map clearW).map RelW.right = l := by
  rw [List.map_map]; exact List.map_id l

omit [Fact p.Prime] [HasSqrt (ZMod p)] in
theorem clearW_left (l : List (RefVal p)) : (l.map clearW).map (RelW.left ()) = l.map VmVal.val := by
  rw [List.map_map]; rfl

omit [Fact p.Prime] [HasSqrt (ZMod p)] in
theorem clear_lists {q : Unit → Except Err (List (ZMod p))} {r : Except Err (List (RefVal p))} {b : List (RefVal p)}
    (h : exceptRel.Rel (Lists Clear) q r) (hr : r = .ok b) : q () = .ok (b.map VmVal.val) := by
  obtain ⟨a, ha, t, h1, rfl⟩ := h b hr
  rw [ha]
  have h1 := congrFun h1 ()
  beta_reduce at h1
  rw [h1, List.map_map]
  exact congrArg _ (List.map_congr_left fun w _ => w.rel)

theorem accelerate_clear {d : TemplateDecl} {o : Nat} {a b : List (RefVal p)} {acc : Accel}
    (h : accelerate (ref p c) d o a acc = .ok b) : accelerate (plain p) d o (a.map VmVal.val) acc = .ok (b.map VmVal.val) := by
  have e : accelerate (ref p c) d o a acc = accelerate (ref p ⟨false, c.randomized⟩) d o a acc := by
    rw [ref_but]; rfl
  rw [e] at h
  have := clear_lists ((plain_rel (p := p) (c := ⟨false, c.randomized⟩) rfl).accelerate d o (a.map clearW) acc)
    (by rw [clearW_right]; exact h)
  rwa [clearW_left] at this

theorem loopC_ret {V P A : Type} {D : Driver (Except Err) V P A} {ctx : Ctx P} {ok : List (IfCtx V) → Bool}
    (hf : ∀ {α : Type} e, D.fail (α := α) e = .error e) {n : Nat} {s : St V} {r : List V} (h : s.body[s.ip]? = some .ret) :
    loopC D ok ctx n s = .ok r ↔ (∃ m, n = m + 1) ∧ s.signals = r := by
  cases n with
  | zero => simp [loopC, hf]
  | succ n => simp [loopC, h, orFail, pure, Except.pure, bind, Except.bind]

/-- Components of a compiled program. -/
theorem comp_clear (hc : Compiled ctx) {n : Nat} {d : TemplateDecl} (hd : Known ctx d) {o : Nat} {a b : List (RefVal p)}
    (h : runComp (ref p c) ctx (loopC (ref p c) noSecret ctx n) d o a = .ok b) :
    SubAny (plain p) ctx noSecret d o (a.map VmVal.val) (b.map VmVal.val) := by
  have hf : ∀ {α : Type} e, (ref p c).fail (α := α) e = .error e := fun _ => rfl
  have hf' : ∀ {α : Type} e, (plain p).fail (α := α) e = .error e := fun _ => rfl
  induction n using Nat.strong_induction_on generalizing d o a b with
  | _ n ih =>
  unfold SubAny
  simp only [runComp] at h ⊢
  cases hac : accelOf ctx d with
  | some acc =>
    rw [hac] at h
    exact ⟨0, accelerate_clear h⟩
  | none =>
    rw [hac] at h
    obtain ⟨name, hd⟩ := hd
    obtain ⟨s, hs⟩ := hc name d hd
    simp only at h ⊢
    have hfr : (St.init (ref p c) d o a).Framed := ⟨⟨_, _, rfl⟩, _, _, rfl⟩
    have hfr' : (St.init (plain p) d o (a.map VmVal.val)).Framed := ⟨⟨_, _, rfl⟩, _, _, rfl⟩
    have hcode : CodeAt d.body 0 s.code := by
      have := CodeAt.of_append [] s.code [.ret]
      rw [List.nil_append, ← hs] at this
      exact this
    have hret : d.body[0 + s.code.length]? = some .ret := by rw [hs, Nat.zero_add]; simp
    obtain ⟨e', n', -, hb, h⟩ := exec_complete hf noSecret_ok s hfr hcode h
    obtain ⟨-, rfl⟩ := (loopC_ret hf hret).mp h
    have hq : EnvRel ctx (St.init (ref p c) d o a).env (St.init (plain p) d o (a.map VmVal.val)).env := by
      refine ⟨?_, rfl, rfl, rfl, by simp [St.env, St.init], by simp [St.env, St.init]⟩
      simp only [St.env, St.init, List.map_replicate]
      rfl
    obtain ⟨q', hb', hq'⟩ := hb.clear (Sub' := SubAny (plain p) ctx noSecret)
      (fun d o a b hd ⟨m, hm, h⟩ => ih m hm hd h) rfl hq
    exact exec_sound hf' hb' rfl hfr' hcode (m := 1) ((loopC_ret hf' hret).mpr ⟨⟨0, rfl⟩, hq'.signals⟩)

theorem finish_clear {prog : Program} {pi : Nat} {signals : List (RefVal p)} {r : List (ZMod p) × List (ZMod p)}
    (h : finish (ref p c) prog pi signals = .ok r) : finish (plain p) prog pi (signals.map VmVal.val) = .ok r := by
  have e : finish (ref p c) prog pi signals = finish (ref p ⟨false, c.randomized⟩) prog pi signals := by
    rw [ref_but]; rfl
  rw [e] at h
  obtain ⟨a, ha, h1, h2⟩ := (plain_rel (p := p) (c := ⟨false, c.randomized⟩) rfl).finish prog pi (signals.map clearW) r
    (by rw [clearW_right]; exact h)
  beta_reduce at ha
  rw [clearW_left] at ha
  rw [ha]
  exact congrArg _ (Prod.ext (h1 ()) (self_cols h2))

/-- The whole run. -/
theorem run_clear (hc : Compiled ctx) {prog : Program} {config : List Bool} {fuel : Nat} {ins : List (String × RefVal p)} {pi : Nat}
    {r : List (ZMod p) × List (ZMod p)} (h : runC (ref p c) noSecret prog ctx config fuel ins pi = .ok r) :
    ∃ fuel', run (plain p) prog ctx config fuel' (ins.map (Prod.map id VmVal.val)) pi = .ok r := by
  have hf' : ∀ {α : Type} e, (plain p).fail (α := α) e = .error e := fun _ => rfl
  have hR := plain_rel (p := p) (c := ⟨false, c.randomized⟩) rfl
  unfold runC at h
  obtain ⟨_, -, h⟩ := bind_ok h
  obtain ⟨s₀, h0, h⟩ := bind_ok h
  obtain ⟨s₁, h1, h⟩ := bind_ok h
  obtain ⟨s₂, h2, h⟩ := bind_ok h
  have e0 : initSignals (ref p c) prog = initSignals (ref p ⟨false, c.randomized⟩) prog := by rw [ref_but]; rfl
  have e1 : setInputs (ref p c) prog s₀ ins = setInputs (ref p ⟨false, c.randomized⟩) prog s₀ ins := by rw [ref_but]; rfl
  rw [e0] at h0
  rw [e1] at h1
  have g0 := clear_lists (hR.initSignals prog) h0
  have g1 := clear_lists (hR.setInputs prog (s₀.map clearW) (ins.map (Prod.map id clearW)))
    (by
      rw [clearW_right, List.map_map, Prod.map_comp_map, show (Prod.map (id ∘ id) (RelW.right ∘ clearW) :
        String × RefVal p → String × RefVal p) = id from rfl, List.map_id]
      exact h1)
  rw [clearW_left, List.map_map, Prod.map_comp_map] at g1
  unfold callMainC at h2
  cases hm : ctx.templDecls prog.main with
  | none => rw [hm] at h2; cases h2
  | some d =>
    rw [hm] at h2
    obtain ⟨m, g2⟩ := comp_clear hc ⟨_, hm⟩ h2
    refine ⟨m, ?_⟩
    unfold run
    refine Except.bind_ok_iff.mpr ⟨(), rfl, Except.bind_ok_iff.mpr ⟨_, g0, Except.bind_ok_iff.mpr ⟨_, g1,
      Except.bind_ok_iff.mpr ⟨_, ?_, finish_clear h⟩⟩⟩⟩
    unfold callMain
    rw [hm]
    exact runComp_mono hf' (fun _ _ h => loop_of_loopC hf' h) g2

/-- The checked run is the run. -/
theorem run_of_runC {prog : Program} {config : List Bool} {fuel : Nat} {ins : List (String × RefVal p)} {pi : Nat}
    {r : List (ZMod p) × List (ZMod p)} (h : runC (ref p c) noSecret prog ctx config fuel ins pi = .ok r) :
    run (ref p c) prog ctx config fuel ins pi = .ok r := by
  have hf : ∀ {α : Type} e, (ref p c).fail (α := α) e = .error e := fun _ => rfl
  unfold runC at h
  unfold run
  obtain ⟨_, h00, h⟩ := bind_ok h
  obtain ⟨s₀, h0, h⟩ := bind_ok h
  obtain ⟨s₁, h1, h⟩ := bind_ok h
  obtain ⟨s₂, h2, h⟩ := bind_ok h
  refine Except.bind_ok_iff.mpr ⟨_, h00, Except.bind_ok_iff.mpr ⟨_, h0, Except.bind_ok_iff.mpr ⟨_, h1,
    Except.bind_ok_iff.mpr ⟨_, ?_, h⟩⟩⟩⟩
  unfold callMainC at h2
  unfold callMain
  cases hm : ctx.templDecls prog.main with
  | none => rw [hm] at h2; cases h2
  | some d =>
    rw [hm] at h2
    exact runComp_mono hf (fun _ _ h => loop_of_loopC hf h) h2

end Verif.CircomVm
