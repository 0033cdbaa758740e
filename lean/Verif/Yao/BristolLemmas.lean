import Verif.Spec.Netlist
import Verif.Yao.ComputesLemmas

/-!
# Netlists
-/

namespace Verif.Yao.Bristol

open Circ

section

variable {I J : Type} {E : I → J → Bool → Prop}

/-- The wires of two runs and the bits on them. -/
structure Wires (E : I → J → Bool → Prop) (n : Nat) (f : Nat → Bool) (ws : List I) (ws' : List J) : Prop where
  len : ws.length = n
  len' : ws'.length = n
  rel : ∀ i (h : i < n), E ws[i] ws'[i] (f i)

variable {n : Nat} {f : Nat → Bool} {ws : List I} {ws' : List J}

theorem Wires.replicate {z : I} {z' : J} (h : E z z' false) (n : Nat) :
    Wires E n (fun _ => false) (List.replicate n z) (List.replicate n z') :=
  ⟨by simp, by simp, fun i hi => by simpa using h⟩

theorem spec_getWire (h : Wires E n f ws ws') {i : Nat} (hi : i < n) :
    CSpec E (fun r r' => E r r' (f i)) (getWire ws i) (getWire ws' i) := by
  unfold getWire
  rw [List.getElem?_eq_getElem (by rw [h.len]; exact hi), List.getElem?_eq_getElem (by rw [h.len']; exact hi)]
  exact CSpec.pure (h.rel i hi)

theorem spec_setWire (h : Wires E n f ws ws') {i : Nat} (hi : i < n) {v v' b} (hv : E v v' b) :
    CSpec E (Wires E n (Function.update f i b)) (setWire ws i v) (setWire ws' i v') := by
  unfold setWire
  rw [if_pos (by rw [h.len]; exact hi), if_pos (by rw [h.len']; exact hi)]
  refine CSpec.pure ⟨by simp [h.len], by simp [h.len'], fun k hk => ?_⟩
  by_cases e : i = k
  · subst e
    simpa using hv
  · simpa [e, Function.update_of_ne (Ne.symm e)] using h.rel k hk

theorem spec_evalGate (h : Wires E n f ws ws') {g : Gate} (ho : g.out < n) (hi : ∀ i ∈ g.ins, i < n) :
    CSpec E (Wires E n (Function.update f g.out (g.bit f))) (evalGate ws g) (evalGate ws' g) := by
  cases g with
  | eqConst b o => exact (CSpec.const b).bind fun v v' hv => spec_setWire h ho hv
  | eqWire a o =>
    exact (spec_getWire h (hi a (by simp [Gate.ins]))).bind fun v v' hv => spec_setWire h ho hv
  | inv a o =>
    refine (spec_getWire h (hi a (by simp [Gate.ins]))).bind fun v v' hv => ?_
    exact (CSpec.gNot hv).bind fun r r' hr => spec_setWire h ho hr
  | and a b o =>
    refine (spec_getWire h (hi a (by simp [Gate.ins]))).bind fun v v' hv => ?_
    refine (spec_getWire h (hi b (by simp [Gate.ins]))).bind fun w w' hw => ?_
    exact (CSpec.gAnd hv hw).bind fun r r' hr => spec_setWire h ho hr
  | xor a b o =>
    refine (spec_getWire h (hi a (by simp [Gate.ins]))).bind fun v v' hv => ?_
    refine (spec_getWire h (hi b (by simp [Gate.ins]))).bind fun w w' hw => ?_
    exact (CSpec.gXor hv hw).bind fun r r' hr => spec_setWire h ho hr

theorem spec_gates (gs : List Gate) (hg : ∀ g ∈ gs, g.out < n ∧ ∀ i ∈ g.ins, i < n)
    {f : Nat → Bool} {ws : List I} {ws' : List J} (h : Wires E n f ws ws') :
    CSpec E (Wires E n (runGates f gs)) (gs.foldlM evalGate ws) (gs.foldlM evalGate ws') := by
  induction gs generalizing f ws ws' with
  | nil => exact CSpec.pure h
  | cons g gs ih =>
    simp only [List.foldlM_cons]
    have hg' := hg g (by simp)
    refine (spec_evalGate h hg'.1 hg'.2).bind fun ws ws' h => ?_
    exact ih (fun g hg'' => hg g (by simp [hg''])) h

theorem spec_setInputs {vs : List I} {vs' : List J} {bs : List Bool} (hv : All3 E vs vs' bs) {ids : List Nat}
    (hl : bs.length = ids.length) (hi : ∀ i ∈ ids, i < n) {f : Nat → Bool} {ws : List I} {ws' : List J}
    (h : Wires E n f ws ws') :
    CSpec E (Wires E n (assign f (ids.zip bs))) (setInputs ws (vs.zip ids)) (setInputs ws' (vs'.zip ids)) := by
  unfold setInputs
  induction hv generalizing ids f ws ws' with
  | nil => simpa [assign] using CSpec.pure h
  | cons hv _ ih =>
    cases ids with
    | nil => simp at hl
    | cons i ids =>
      simp only [List.zip_cons_cons, List.foldlM_cons]
      refine (spec_setWire h (hi i (by simp)) hv).bind fun ws ws' h => ?_
      exact ih (by simpa using hl) (fun k hk => hi k (by simp [hk])) h

theorem assign_append (f : Nat → Bool) (l l' : List (Nat × Bool)) :
    assign f (l ++ l') = assign (assign f l) l' := by simp [assign]

theorem spec_setBundles {vs : List (List I)} {vs' : List (List J)} {bs : List (List Bool)}
    (hv : All3 (All3 E) vs vs' bs) {ids : List (List Nat)}
    (hl : bs.map List.length = ids.map List.length) (hi : ∀ i ∈ ids.flatten, i < n) {f : Nat → Bool}
    {ws : List I} {ws' : List J} (h : Wires E n f ws ws') :
    CSpec E (Wires E n (assign f (ids.flatten.zip bs.flatten))) (setBundles ws (vs.zip ids))
      (setBundles ws' (vs'.zip ids)) := by
  unfold setBundles
  induction hv generalizing ids f ws ws' with
  | nil =>
    cases ids with
    | nil => exact CSpec.pure h
    | cons => simp at hl
  | cons hv _ ih =>
    cases ids with
    | nil => simp at hl
    | cons i ids =>
      simp only [List.map_cons, List.cons.injEq] at hl
      simp only [List.zip_cons_cons, List.foldlM_cons]
      rw [if_neg (by rw [hv.len, hl.1]; simp), if_neg (by rw [hv.len', hl.1]; simp)]
      refine (spec_setInputs hv hl.1 (fun k hk => hi k (by simp [hk])) h).bind fun ws ws' h => ?_
      have := ih hl.2 (fun k hk => hi k (by rw [List.flatten_cons]; exact List.mem_append_right _ hk)) h
      rw [List.flatten_cons, List.flatten_cons, List.zip_append hl.1.symm, assign_append]
      exact this

theorem spec_outputs (h : Wires E n f ws ws') {out : List Nat} (ho : ∀ i ∈ out, i < n) :
    CSpec E (fun r r' => All3 E r r' (out.map f)) (out.mapM fun i => getWire ws i)
      (out.mapM fun i => getWire ws' i) := by
  induction out with
  | nil => exact CSpec.pure .nil
  | cons i out ih =>
    simp only [List.mapM_cons]
    refine (spec_getWire h (ho i (by simp))).bind fun r r' hr => ?_
    refine (ih fun k hk => ho k (by simp [hk])).bind fun rs rs' hrs => ?_
    exact CSpec.pure (.cons hr hrs)

theorem spec_evaluate {c : Circuit} (hc : c.InRange) {vs : List (List I)} {vs' : List (List J)}
    {ins : List (List Bool)} (hv : All3 (All3 E) vs vs' ins)
    (hl : ins.map List.length = c.inputWires.map List.length) {z : I} {z' : J} (hz : E z z' false) :
    CSpec E (fun r r' => All3 (All3 E) r r' (c.outputWires.map (List.map
        (runGates (assign (fun _ => false) (c.inputWires.flatten.zip ins.flatten)) c.gates))))
      (evaluate c vs z) (evaluate c vs' z') := by
  have hlen : ins.length = c.inputWires.length := by simpa using congrArg List.length hl
  unfold evaluate
  rw [if_neg (by rw [hv.len, hlen]; simp), if_neg (by rw [hv.len', hlen]; simp)]
  refine (spec_setBundles hv hl hc.1 (Wires.replicate hz c.numWires)).bind fun ws ws' h => ?_
  refine (spec_gates c.gates hc.2.2 h).bind fun ws ws' h => ?_
  have ho := hc.2.1
  clear hl hlen
  revert ho
  generalize c.outputWires = outs
  intro ho
  induction outs with
  | nil => exact CSpec.pure .nil
  | cons o os ih =>
    simp only [List.mapM_cons]
    refine (spec_outputs h (out := o) fun i hi => ho i (by simp [hi])).bind fun r r' hr => ?_
    refine (ih fun i hi => ho i (by rw [List.flatten_cons]; exact List.mem_append_right _ hi)).bind
      fun rs rs' hrs => ?_
    exact CSpec.pure (.cons hr hrs)

end

/-- The circuit code of a netlist, as the parties run it: `evaluate`,
`/repo/mpc-core/src/protocols/rep3/yao/bristol_fashion/bristol.rs:269-278`.  The output bundles are
concatenated. -/
def Circuit.code (c : Circuit) : Verif.Yao.Circuit := fun _ dflt ins => List.flatten <$> evaluate c ins dflt

theorem computes_code {c : Circuit} (hc : c.InRange) {ins : List (List Bool)}
    (hl : ins.map List.length = c.inputWires.map List.length) : Computes c.code ins (c.outputs ins) := by
  refine .of_spec fun I J E z z' as bs hz hab => ?_
  unfold Circuit.code Circuit.outputs
  simp only [map_eq_pure_bind]
  refine (spec_evaluate hc hab hl hz).bind fun r r' hr => CSpec.pure ?_
  rw [List.map_flatten]
  exact hr.flatten

/-! ### Verified netlists do not read the default value -/

/-- Two arrays of wires that agree on the wires in `s`. -/
def Agree {I : Type} (s : List Nat) (ws ws' : List I) : Prop :=
  ws.length = ws'.length ∧ ∀ i ∈ s, ws[i]? = ws'[i]?

section

variable {I : Type} {s : List Nat} {ws ws' : List I}

theorem Agree.get (h : Agree s ws ws') {i : Nat} (hi : i ∈ s) : getWire ws i = getWire ws' i := by
  unfold getWire
  rw [h.2 i hi]

theorem Agree.set (h : Agree s ws ws') (i : Nat) (v : I) : Agree (i :: s) (ws.set i v) (ws'.set i v) := by
  refine ⟨by simp [h.1], fun k hk => ?_⟩
  rw [List.getElem?_set, List.getElem?_set, h.1]
  by_cases e : i = k
  · simp [e]
  · simp only [e, if_false]
    rcases List.mem_cons.1 hk with rfl | hk
    · exact absurd rfl e
    · exact h.2 k hk

/-- Setting a wire and going on. -/
theorem Agree.setWire {α : Type} {k k' : List I → Circ I α} (h : Agree s ws ws') (i : Nat) (v : I)
    (hk : ∀ us us', Agree (i :: s) us us' → k us = k' us') :
    (setWire ws i v >>= k) = (setWire ws' i v >>= k') := by
  unfold Bristol.setWire
  rw [h.1]
  split
  · exact hk _ _ (h.set i v)
  · rfl

theorem insertNew_ok {s s' : List Nat} {i : Nat} (h : insertNew s i = .ok s') : s' = i :: s := by
  unfold insertNew at h
  split at h
  · cases h
  · exact (Except.ok.inj h).symm

theorem needs_ok {s : List Nat} {l : List Nat} (h : l.forM (needs s) = .ok ()) : ∀ i ∈ l, i ∈ s := by
  induction l with
  | nil => simp
  | cons a l ih =>
    have h' : (needs s a >>= fun _ => l.forM (needs s)) = .ok () := h
    unfold needs at h'
    split at h'
    · next ha =>
      intro i hi
      rcases List.mem_cons.1 hi with rfl | hi
      · exact ha
      · exact ih h' i hi
    · cases h'

theorem Agree.gate {α : Type} {k k' : List I → Circ I α} (h : Agree s ws ws') {g : Gate} {s' : List Nat}
    (hv : verifyGate s g = .ok s') (hk : ∀ us us', Agree s' us us' → k us = k' us') :
    (evalGate ws g >>= k) = (evalGate ws' g >>= k') := by
  unfold verifyGate at hv
  rcases hn : g.ins.forM (needs s) with _ | u
  · rw [hn] at hv; cases hv
  · rw [hn] at hv
    have hs' : s' = g.out :: s := insertNew_ok hv
    subst hs'
    have hin := needs_ok hn
    cases g with
    | eqConst b o =>
      simp only [evalGate, bind_assoc]
      exact congrArg _ (funext fun v => h.setWire o v hk)
    | eqWire a o =>
      simp only [evalGate, bind_assoc, h.get (hin a (by simp [Gate.ins]))]
      exact congrArg _ (funext fun v => h.setWire o v hk)
    | inv a o =>
      simp only [evalGate, bind_assoc, h.get (hin a (by simp [Gate.ins]))]
      exact congrArg _ (funext fun v => congrArg _ (funext fun r => h.setWire o r hk))
    | and a b o =>
      simp only [evalGate, bind_assoc, h.get (hin a (by simp [Gate.ins])), h.get (hin b (by simp [Gate.ins]))]
      exact congrArg _ (funext fun v => congrArg _ (funext fun w => congrArg _ (funext fun r =>
        h.setWire o r hk)))
    | xor a b o =>
      simp only [evalGate, bind_assoc, h.get (hin a (by simp [Gate.ins])), h.get (hin b (by simp [Gate.ins]))]
      exact congrArg _ (funext fun v => congrArg _ (funext fun w => congrArg _ (funext fun r =>
        h.setWire o r hk)))

theorem Agree.gates {α : Type} {k k' : List I → Circ I α} (gs : List Gate) {s' : List Nat} {s : List Nat}
    {ws ws' : List I} (h : Agree s ws ws') (hv : gs.foldlM verifyGate s = .ok s')
    (hk : ∀ us us', Agree s' us us' → k us = k' us') :
    (gs.foldlM evalGate ws >>= k) = (gs.foldlM evalGate ws' >>= k') := by
  induction gs generalizing s ws ws' with
  | nil =>
    cases hv
    exact hk _ _ h
  | cons g gs ih =>
    rw [List.foldlM_cons] at hv
    simp only [List.foldlM_cons, bind_assoc]
    rcases hg : verifyGate s g with e | s₁
    · rw [hg] at hv; cases hv
    · rw [hg] at hv
      exact h.gate hg fun us us' h => ih h hv

theorem Agree.inputs {α : Type} {k k' : List I → Circ I α} (vs : List (I × Nat)) {s : List Nat}
    {ws ws' : List I} (h : Agree s ws ws')
    (hk : ∀ us us', Agree ((vs.map Prod.snd).reverse ++ s) us us' → k us = k' us') :
    (setInputs ws vs >>= k) = (setInputs ws' vs >>= k') := by
  unfold setInputs
  induction vs generalizing s ws ws' with
  | nil => exact hk _ _ h
  | cons v vs ih =>
    simp only [List.foldlM_cons, bind_assoc]
    refine h.setWire v.2 v.1 fun us us' h => ih h fun us us' h => hk _ _ ?_
    simpa using h

theorem Agree.bundles {α : Type} {k k' : List I → Circ I α} (bs : List (List I × List Nat)) {s : List Nat}
    {ws ws' : List I} (h : Agree s ws ws')
    (hk : ∀ us us', Agree ((bs.map Prod.snd).flatten.reverse ++ s) us us' → k us = k' us') :
    (setBundles ws bs >>= k) = (setBundles ws' bs >>= k') := by
  unfold setBundles
  induction bs generalizing s ws ws' with
  | nil => exact hk _ _ h
  | cons b bs ih =>
    simp only [List.foldlM_cons, bind_assoc]
    split
    · rfl
    · next hl =>
      refine h.inputs _ fun us us' h => ih h fun us us' h => hk _ _ ?_
      have : (b.1.zip b.2).map Prod.snd = b.2 := by
        rw [List.map_snd_zip]
        push Not at hl
        exact hl.ge
      rw [this] at h
      simpa using h

theorem insertNew_all (l s s' : List Nat) (h : l.foldlM insertNew s = .ok s') : s' = l.reverse ++ s := by
  induction l generalizing s with
  | nil => cases h; rfl
  | cons a l ih =>
    rw [List.foldlM_cons] at h
    rcases hi : insertNew s a with e | s₁
    · rw [hi] at h; cases h
    · rw [hi] at h
      rw [ih _ h, insertNew_ok hi]
      simp

theorem evaluate_default {c c' : Circuit} {n : Nat} (hv : verify n c = .ok c') (ins : List (List I)) (d d' : I) :
    evaluate c ins d = evaluate c ins d' := by
  unfold verify at hv
  rcases h1 : c.inputWires.flatten.foldlM insertNew [] with e | s₁
  · rw [h1] at hv; cases hv
  rw [h1] at hv
  rcases h2 : c.gates.foldlM verifyGate s₁ with e | s₂
  · simp only [bind, Except.bind, h2] at hv; cases hv
  simp only [bind, Except.bind, h2] at hv
  rcases h3 : c.outputWires.flatten.forM (needs s₂) with e | u
  · rw [h3] at hv; cases hv
  have hout := needs_ok h3
  unfold evaluate
  split
  · rfl
  next hl =>
  push Not at hl
  have h0 : Agree [] (List.replicate c.numWires d) (List.replicate c.numWires d') :=
    ⟨by simp, by simp⟩
  refine h0.bundles _ fun us us' h => ?_
  rw [List.map_snd_zip hl.ge, ← insertNew_all _ _ _ h1] at h
  refine h.gates c.gates h2 fun us us' h => ?_
  clear hv h3
  revert hout
  generalize c.outputWires = outs
  intro hout
  induction outs with
  | nil => rfl
  | cons o os ih =>
    have ho : (o.mapM fun i => getWire us i) = o.mapM fun i => getWire us' i := by
      have hm : ∀ i ∈ o, i ∈ s₂ := fun i hi => hout i (by simp [hi])
      clear ih hout
      induction o with
      | nil => rfl
      | cons i o ih =>
        simp only [List.mapM_cons, h.get (hm i (by simp)), ih fun k hk => hm k (by simp [hk])]
    simp only [List.mapM_cons, ho, ih fun i hi => hout i (by rw [List.flatten_cons]; exact List.mem_append_right _ hi)]

end

end Verif.Yao.Bristol
