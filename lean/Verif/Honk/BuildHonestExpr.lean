import Verif.Honk.BuildHonestLimbs
import Verif.Honk.BuildSound

/-!
# Lemmas: the gates of expressions of an honest prover
-/

namespace Verif.Honk.Draft

open Acvm (Expression Input Opcode)

variable {F : Type} [Field F] {toNat : F → Nat}

/-- A wire that is missing has no coefficient; the others satisfy `W`. -/
def WireOk (W : Nat → Prop) (i : Option Nat) (q : F) : Prop := (∀ v, i = some v → W v) ∧ (i = none → q = 0)

/-- The wires of a gate. -/
structure QuadOk (W : Nat → Prop) (q : Quad F (Option Nat)) : Prop where
  a : ∃ v, q.a = some v ∧ W v
  b : WireOk W q.b q.qb
  c : WireOk W q.c q.qc
  d : WireOk W q.d q.qd

theorem WireOk.some {W : Nat → Prop} {v : Nat} (h : W v) (q : F) : WireOk W (some v) q := ⟨fun u hu => by cases hu; exact h, by simp⟩

theorem WireOk.none (W : Nat → Prop) : WireOk W none (0 : F) := ⟨by simp, fun _ => rfl⟩

theorem WireOk.mono {W W' : Nat → Prop} (hW : ∀ v, W v → W' v) {i : Option Nat} {q : F} (h : WireOk W i q) : WireOk W' i q :=
  ⟨fun v hv => hW v (h.1 v hv), h.2⟩

theorem QuadOk.mono {W W' : Nat → Prop} (hW : ∀ v, W v → W' v) {q : Quad F (Option Nat)} (h : QuadOk W q) : QuadOk W' q :=
  ⟨h.a.imp fun _ hv => ⟨hv.1, hW _ hv.2⟩, h.b.mono hW, h.c.mono hW, h.d.mono hW⟩

section split

variable [DecidableEq F]

theorem popTerm_wire {W : Nat → Prop} {m : List (Nat × F)} (h : ∀ x ∈ m, W x.1) :
    WireOk W (popTerm m).1.1 (popTerm m).1.2 ∧ ∀ x ∈ (popTerm m).2, W x.1 := by
  cases m with
  | nil => exact ⟨.none W, by simp [popTerm]⟩
  | cons x xs => exact ⟨.some (h x List.mem_cons_self) _, fun y hy => h y (List.mem_cons_of_mem _ hy)⟩

theorem mulQuads_wires {W : Nat → Prop} : ∀ (ts : List (F × Nat × Nat)) {m : List (Nat × F)}, (∀ t ∈ ts, W t.2.1 ∧ W t.2.2) → (∀ x ∈ m, W x.1) →
    (∀ q ∈ (mulQuads ts m).1, QuadOk W q ∧ Free q) ∧ ∀ x ∈ (mulQuads ts m).2, W x.1
  | [], m, _, hm => ⟨by simp [mulQuads], hm⟩
  | t :: ts, m, ht, hm => by
    have hm1 : ∀ x ∈ (takeTerm (takeTerm m t.2.1).2 t.2.2).2, W x.1 := fun x hx =>
      hm x (List.mem_of_mem_filter (List.mem_of_mem_filter hx))
    obtain ⟨h1, h2⟩ := mulQuads_wires ts (fun t ht' => ht t (List.mem_cons_of_mem _ ht')) hm1
    obtain ⟨ha, hb⟩ := ht t List.mem_cons_self
    simp only [mulQuads]
    refine ⟨fun q hq => ?_, h2⟩
    rcases List.mem_cons.1 hq with rfl | hq
    · exact ⟨⟨⟨_, rfl, ha⟩, .some hb _, .none W, .none W⟩, ⟨rfl, rfl, rfl, rfl, rfl⟩⟩
    · exact h1 q hq

theorem fillQuads_wires {W : Nat → Prop} (k : F) : ∀ (b : Bool) (qs : List (Quad F (Option Nat))) {m : List (Nat × F)}, (∀ q ∈ qs, QuadOk W q ∧ Free q) →
    (∀ x ∈ m, W x.1) → (∀ q ∈ (fillQuads k b qs m).1, QuadOk W q) ∧ ∀ x ∈ (fillQuads k b qs m).2, W x.1
  | b, [], m, _, hm => ⟨by simp [fillQuads], hm⟩
  | b, q :: qs, m, hq, hm => by
    obtain ⟨h0, hf⟩ := hq q List.mem_cons_self
    have hqs := fun q hq' => hq q (List.mem_cons_of_mem _ hq')
    obtain ⟨p1, m1⟩ := popTerm_wire hm
    obtain ⟨p2, m2⟩ := popTerm_wire m1
    cases b with
    | false =>
      obtain ⟨h1, h2⟩ := fillQuads_wires k false qs hqs m1
      simp only [fillQuads, Bool.false_eq_true, if_false]
      refine ⟨fun q' hq' => ?_, h2⟩
      rcases List.mem_cons.1 hq' with rfl | hq'
      · exact ⟨h0.a, h0.b, by simpa only [hf.qc, zero_add] using p1, h0.d⟩
      · exact h1 q' hq'
    | true =>
      obtain ⟨h1, h2⟩ := fillQuads_wires k false qs hqs m2
      simp only [fillQuads, if_true]
      refine ⟨fun q' hq' => ?_, h2⟩
      rcases List.mem_cons.1 hq' with rfl | hq'
      · exact ⟨h0.a, h0.b, by simpa only [hf.qc, zero_add] using p1, by simpa only [hf.qd, zero_add] using p2⟩
      · exact h1 q' hq'

theorem restQuads_wires {W : Nat → Prop} (k : F) : ∀ (fuel : Nat) (b : Bool) {m : List (Nat × F)}, (∀ x ∈ m, W x.1) →
    ∀ q ∈ restQuads k fuel b m, QuadOk W q
  | 0, b, m, _ => by simp [restQuads]
  | fuel + 1, b, [], _ => by simp [restQuads]
  | fuel + 1, b, x :: xs, hm => by
    have hx := hm x List.mem_cons_self
    obtain ⟨p1, m1⟩ := popTerm_wire fun y hy => hm y (List.mem_cons_of_mem _ hy)
    obtain ⟨p2, m2⟩ := popTerm_wire m1
    obtain ⟨p3, m3⟩ := popTerm_wire m2
    intro q hq
    cases b with
    | false =>
      simp only [restQuads, Bool.false_eq_true, if_false] at hq
      rcases List.mem_cons.1 hq with rfl | hq
      · exact ⟨⟨_, rfl, hx⟩, p1, p2, .none W⟩
      · exact restQuads_wires k fuel false m2 q hq
    | true =>
      simp only [restQuads, if_true] at hq
      rcases List.mem_cons.1 hq with rfl | hq
      · exact ⟨⟨_, rfl, hx⟩, p1, p2, p3⟩
      · exact restQuads_wires k fuel false m3 q hq

theorem linearTerms_wires {W : Nat → Prop} (ls : List (F × Nat)) : ∀ {m : List (Nat × F)}, (∀ t ∈ ls, W t.2) → (∀ x ∈ m, W x.1) →
    ∀ x ∈ ls.foldl (fun m t => insertTerm t.2 t.1 m) m, W x.1 := by
  induction ls with
  | nil => intro m _ hm; exact hm
  | cons t ls ih =>
    intro m ht hm
    refine ih (fun t ht' => ht t (List.mem_cons_of_mem _ ht')) fun x hx => ?_
    rcases mem_insertTerm hx with e | hx
    · rw [e]; exact ht t List.mem_cons_self
    · exact hm x hx

theorem splitQuads_wires {W : Nat → Prop} {e : Expression F} {qs : List (Quad F (Option Nat))} (hW : ∀ v ∈ witnessesOf (.assertZero e), W v)
    (h : splitQuads e (linearTerms e) = .ok qs) : ∀ q ∈ qs, QuadOk W q := by
  obtain ⟨_, -, h⟩ := bind_ok.1 h
  cases h
  simp only [witnessesOf, List.mem_append, List.mem_flatMap, List.mem_map] at hW
  obtain ⟨h1, h2⟩ := mulQuads_wires (W := W) e.mulTerms (m := linearTerms e)
    (fun t ht => ⟨hW _ (.inl ⟨t, ht, by simp⟩), hW _ (.inl ⟨t, ht, by simp⟩)⟩)
    (linearTerms_wires e.linear (fun t ht => hW _ (.inr ⟨t, ht, rfl⟩)) (by simp))
  obtain ⟨h3, h4⟩ := fillQuads_wires e.qc true _ h1 h2
  intro q hq
  rcases List.mem_append.1 hq with hq | hq
  · exact h3 q hq
  · exact restQuads_wires _ _ _ h4 q hq

/-- All wires of the constraints satisfy `W`. -/
structure AcirFormat.Wires (W : Nat → Prop) (af : AcirFormat F) : Prop where
  quads : ∀ q ∈ af.quads, QuadOk W q
  bigQuads : ∀ qs ∈ af.bigQuads, qs ≠ [] ∧ (∀ q ∈ qs, QuadOk W q) ∧ ∀ q ∈ qs.tail, q.d = none ∧ q.qd = 0
  ranges : ∀ r ∈ af.ranges, W r.1

theorem addOpcode_wires {W : Nat → Prop} {af af' : AcirFormat F} {op : Opcode F} (hW : ∀ v ∈ witnessesOf op, W v) (h : addOpcode af op = .ok af')
    (ha : af.Wires W) : af'.Wires W ∧ ∀ w, af.Sat w → OpSat w op → af'.Sat w := by
  cases op with
  | assertZero e =>
    obtain ⟨qs, h1, h⟩ := bind_ok.1 h
    obtain ⟨_, -, h⟩ := bind_ok.1 h
    have hq := splitQuads_wires hW h1
    by_cases hs : isSingle e (linearTerms e)
    · rw [if_pos hs] at h
      match qs, h1, h, hq with
      | [q], h1, h, hq =>
        cases h
        refine ⟨⟨fun q' hq' => ?_, ha.bigQuads, ha.ranges⟩, fun w hw ho => ⟨fun q' hq' => ?_, hw.bigQuads, hw.ranges⟩⟩
        · rcases List.mem_append.1 hq' with hq' | hq'
          · exact ha.quads q' hq'
          · exact hq q' hq'
        · rcases List.mem_append.1 hq' with hq' | hq'
          · exact hw.quads q' hq'
          · rw [OpSat, ← (splitQuads_sum w h1).1] at ho
            rw [List.mem_singleton.1 hq']
            simpa [quadSum] using ho
      | [], h1, h, hq => cases h
      | _ :: _ :: _, h1, h, hq => cases h
    · rw [if_neg hs] at h
      obtain ⟨_, -, h⟩ := bind_ok.1 h
      cases h
      refine ⟨⟨ha.quads, fun qs' hqs => ?_, ha.ranges⟩, fun w hw ho => ⟨hw.quads, fun qs' hqs => ?_, hw.ranges⟩⟩
      · rcases List.mem_append.1 hqs with hqs | hqs
        · exact ha.bigQuads qs' hqs
        · rw [List.mem_singleton.1 hqs]
          have := splitQuads_sum (fun _ => 0) h1
          exact ⟨this.2.1, hq, this.2.2⟩
      · rcases List.mem_append.1 hqs with hqs | hqs
        · exact hw.bigQuads qs' hqs
        · rw [List.mem_singleton.1 hqs, (splitQuads_sum w h1).1]; exact ho
  | range x bits =>
    cases x with
    | witness v =>
      cases h
      refine ⟨⟨ha.quads, ha.bigQuads, fun r hr => ?_⟩, fun w hw ho => ⟨hw.quads, hw.bigQuads, fun r hr => ?_⟩⟩
      · rcases List.mem_append.1 hr with hr | hr
        · exact ha.ranges r hr
        · rw [List.mem_singleton.1 hr]; exact hW v (by simp [witnessesOf])
      · rcases List.mem_append.1 hr with hr | hr
        · exact hw.ranges r hr
        · rw [List.mem_singleton.1 hr]; exact ho
    | constant c => cases h
  | memoryInit => cases h
  | memoryRead => cases h
  | memoryWrite => cases h
  | and => cases h
  | xor => cases h
  | call => cases h

theorem acirFold_wires {W : Nat → Prop} : ∀ (ops : List (Opcode F)) {af af' : AcirFormat F}, (∀ v ∈ ops.flatMap witnessesOf, W v) → ops.foldlM addOpcode af = .ok af' →
    af.Wires W → af'.Wires W ∧ ∀ w, af.Sat w → (∀ op ∈ ops, OpSat w op) → af'.Sat w
  | [], af, af', _, h, ha => by cases h; exact ⟨ha, fun w hw _ => hw⟩
  | op :: ops, af, af', hW, h, ha => by
    rw [List.foldlM_cons] at h
    obtain ⟨af1, h1, h⟩ := bind_ok.1 h
    rw [List.flatMap_cons] at hW
    obtain ⟨a1, a2⟩ := addOpcode_wires (fun v hv => hW v (List.mem_append_left _ hv)) h1 ha
    obtain ⟨b1, b2⟩ := acirFold_wires ops (fun v hv => hW v (List.mem_append_right _ hv)) h a1
    exact ⟨b1, fun w hw ho => b2 w (a2 w hw (ho op List.mem_cons_self)) fun o h' => ho o (List.mem_cons_of_mem _ h')⟩

end split

/-! ## Gates -/

variable [DecidableEq F]

theorem setZero_run {s : Draft F} {q : Quad F (Option Nat)} (hz : s.zeroIdx < s.vars.length) (h : QuadOk (· < s.vars.length) q) :
    ∃ g, s.setZero q = .ok g ∧ At s g := by
  have hres : ∀ {i : Option Nat} {k : F}, WireOk (· < s.vars.length) i k → ∃ j, s.resolve i k = .ok j ∧ j < s.vars.length := by
    intro i k hi
    cases i with
    | some i => exact ⟨i, rfl, hi.1 i rfl⟩
    | none => exact ⟨s.zeroIdx, bind_ok.2 ⟨(), check_ok.2 (decide_eq_true (hi.2 rfl)), rfl⟩, hz⟩
  obtain ⟨a, ha, hal⟩ := h.a
  obtain ⟨b, hb, hbl⟩ := hres h.b
  obtain ⟨c, hc, hcl⟩ := hres h.c
  obtain ⟨d, hd, hdl⟩ := hres h.d
  refine ⟨⟨a, b, c, d, q.mul, q.qa, q.qb, q.qc, q.qd, q.const⟩, ?_, hal, hbl, hcl, hdl⟩
  rw [setZero, ha]
  exact bind_ok.2 ⟨b, hb, bind_ok.2 ⟨c, hc, bind_ok.2 ⟨d, hd, rfl⟩⟩⟩

/-- The gate of an expression. -/
theorem Honest.quadConstraint {s : Draft F} {P : List Nat} {e : Option F} (h : Honest toNat s P e) {q : Quad F (Option Nat)}
    (hq : QuadOk (· < s.vars.length) q) (he : ∀ x, e = some x → ∃ d, q.d = some d ∧ s.vars[d]? = some x)
    (hv : ∀ w, Agree w s → q.value (opt w) = 0) :
    ∃ s', s.quadConstraint q = .ok s' ∧ Honest toNat s' P none ∧ Grows s s' := by
  obtain ⟨g, hg, hat⟩ := setZero_run (lt_of_get h.zero) hq
  obtain ⟨s', hr, h', g', -⟩ := h.gate hat (fun x hx => by
    obtain ⟨d, hd, hdx⟩ := he x hx
    rw [setZero_ok hg, hd]; exact hdx) fun w hw => by rw [setZero_value hg (hw _ _ h.zero)]; exact hv w hw
  exact ⟨s', bind_ok.2 ⟨g, hg, hr⟩, h', g'⟩

/-- The gates of a long expression. -/
theorem Honest.bigQuad : ∀ (qs : List (Quad F (Option Nat))) {s : Draft F} {P : List Nat} {e : Option F}, Honest toNat s P e → qs ≠ [] →
    (∀ q ∈ qs, QuadOk (· < s.vars.length) q) → (∀ q ∈ qs.tail, q.d = none ∧ q.qd = 0) →
    (∀ x, e = some x → ∃ q d, qs.head? = some q ∧ q.d = some d ∧ s.vars[d]? = some x) →
    (∀ w, Agree w s → quadSum w qs = 0) → ∃ s', s.bigQuadConstraint qs = .ok s' ∧ Honest toNat s' P none ∧ Grows s s'
  | [], _, _, _, _, hne, _, _, _, _ => absurd rfl hne
  | [q], s, P, e, h, _, hq, _, he, hv => by
    rw [bigQuadConstraint]
    refine h.quadConstraint (hq q List.mem_cons_self) (fun x hx => ?_) fun w hw => by simpa [quadSum] using hv w hw
    obtain ⟨q', d, h1, h2⟩ := he x hx
    cases h1
    exact ⟨d, h2⟩
  | q :: q' :: qs, s, P, e, h, _, hq, ht, he, hv => by
    obtain ⟨g, hg, hat⟩ := setZero_run (lt_of_get h.zero) (hq q List.mem_cons_self)
    let w0 : Nat → F := fun v => s.vars.getD v 0
    have hw0 : Agree w0 s := fun v x hx => by simp [w0, List.getD_eq_getElem?_getD, hx]
    have hget : ∀ v, v < s.vars.length → s.vars[v]? = some (w0 v) := fun v hv => by
      simp [w0, List.getD_eq_getElem?_getD, List.getElem?_eq_getElem hv]
    have hsame : ∀ w, Agree w s → g.value w = g.value w0 := by
      intro w hw
      simp only [Quad.value, hw _ _ (hget _ hat.1), hw _ _ (hget _ hat.2.1), hw _ _ (hget _ hat.2.2.1), hw _ _ (hget _ hat.2.2.2)]
    set x := -(g.const + g.mul * (w0 g.a * w0 g.b) + g.qa * w0 g.a + g.qb * w0 g.b + g.qc * w0 g.c + g.qd * w0 g.d) with hx
    have hxv : g.value w0 + x = 0 := by rw [hx]; simp only [Quad.value]; ring
    obtain ⟨s1, hr1, h1, g1, e1, -⟩ := h.gateNext hat (x := x) (fun x hx => by
      obtain ⟨q1, d, hq1, hd, hdx⟩ := he x hx
      cases hq1
      rw [setZero_ok hg, hd]; exact hdx) fun w hw => by rw [hsame w hw]; exact hxv
    obtain ⟨ht1, ht2⟩ := ht q' List.mem_cons_self
    have hlen : s1.vars.length ≤ (s1.addVariable x).vars.length := by simp [Draft.addVariable]
    have hmono : ∀ v, v < s.vars.length → v < (s1.addVariable x).vars.length := fun v hv => by rw [← e1] at hv; omega
    have hnew := get_new s1 x
    obtain ⟨s2, hr2, h2, g2⟩ := Honest.bigQuad ({ q' with d := some s1.vars.length, qd := -1 } :: qs) (h1.addVariable x) (by simp) (by
        intro q1 hq1
        rcases List.mem_cons.1 hq1 with rfl | hq1
        · have := (hq q' (by simp)).mono hmono
          exact ⟨this.a, this.b, this.c, .some (W := (· < (s1.addVariable x).vars.length)) (lt_of_get hnew) _⟩
        · exact (hq q1 (by simp [hq1])).mono hmono) (fun q1 hq1 => ht q1 (List.mem_cons_of_mem _ hq1))
      (fun y hy => by cases hy; exact ⟨_, _, rfl, rfl, hnew⟩) (fun w hw => by
        have hw1 : Agree w s := hw.mono (g1.vars.trans ⟨_, rfl⟩)
        have h3 := hv w hw1
        have h4 := setZero_value hg (hw1 _ _ h.zero)
        rw [hsame w hw1] at h4
        have h5 := hw _ _ hnew
        simp only [quadSum, List.map_cons, List.sum_cons] at h3 ⊢
        rw [← h4] at h3
        simp only [Quad.value, ht1, ht2] at h3 hxv ⊢
        simp only [opt, Option.elim] at h3 ⊢
        rw [h5]
        linear_combination h3 - hxv)
    refine ⟨s2, ?_, h2, g1.trans ((grows_addVariable _ _).trans g2)⟩
    rw [bigQuadConstraint]
    have hgv : ∀ v, v < s.vars.length → s1.getVariable v = .ok (w0 v) := fun v hv => h1.getVariable (by rw [e1]; exact hget v hv)
    exact bind_ok.2 ⟨g, hg, bind_ok.2 ⟨s1, hr1, bind_ok.2 ⟨_, hgv _ hat.1, bind_ok.2 ⟨_, hgv _ hat.2.1, bind_ok.2 ⟨_, hgv _ hat.2.2.1,
      bind_ok.2 ⟨_, hgv _ hat.2.2.2, hr2⟩⟩⟩⟩⟩⟩
termination_by qs => qs.length

end Verif.Honk.Draft
