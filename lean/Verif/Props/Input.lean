import Verif.CoCircom.WitnessLemmas
import Verif.Rep3.ShareLemmas
import Verif.Shamir.ShareLemmas
import Verif.Props.VmMeaning

/-!
# C88, C89: inputs of several users

`Verif/Spec/Input.lean` says what a JSON input means.  `splitInput`, `splitInputShamir`, `mergeInputShares` and
`generateWitness` are in `Verif/CoCircom/Input.lean`.
-/

namespace Verif.Props

open Verif.CoCircom Verif.CircomVm Verif.Rep3 Demo
open Spec.Input (Entry Readable Gives GoodNames Held Agree Union)
open Spec.Circom (Witness)

variable {R : Type} {p : Nat} {rd : Readers (ZMod p)} {pub : List String}

/-! ## C88 -/

/-- C88: an entry of a JSON input is accepted if it can be read. -/
theorem C88_readable (rd : Readers (ZMod p)) (name : String) (j : Json) :
    (∃ l, parseEntry rd name j = .ok l) ↔ Readable rd j := parseEntry_iff

/-- C88: it is read as what it means, with one value for a name. -/
theorem C88_read {name : String} {j : Json} {l : List (String × ZMod p)} (h : parseEntry rd name j = .ok l) :
    (l.map Prod.fst).Nodup ∧ ∀ k v, (k, v) ∈ l ↔ Entry rd name j k v :=
  ⟨parseEntry_nodup h, fun _ _ => parseEntry_mem h⟩

/-- C88: splitting succeeds if every entry can be read, whatever the randomness. -/
theorem C88_split_ok [Sample R (ZMod p)] (rd : Readers (ZMod p)) (pub : List String) (input : List (String × Json)) (rng : R) :
    (∃ s, splitInput rd pub input rng = .ok s) ↔ ∀ e ∈ input, Readable rd e.2 := splitLoop_ok_iff

/-- C88: after splitting, the parties have the public values in the clear and sharings of the others, for the signals to
which the input gives a value, and nothing else. -/
theorem C88_split [Sample R (ZMod p)] {input : List (String × Json)} (hg : GoodNames input) {rng : R}
    {s : PartyID → Rep3SharedInput p} (h : splitInput rd pub input rng = .ok s) (k : String) :
    (∀ a, Gives rd pub input k a → Held IsShare (fun i => getKey k (s i)) a) ∧
    ((∀ a, ¬ Gives rd pub input k a) → ∀ i, getKey k (s i) = none) := by
  obtain ⟨m, h1, h2, h3⟩ := split_spec (Sh := IsShare) shareElement_isShare hg h
  refine ⟨fun a ha => h1.held ((getKey_iff h2).mpr ((h3 k a).mpr ha)), fun hn => h1.absent (getKey_none.mpr fun hk => ?_)⟩
  obtain ⟨⟨_, a⟩, he, rfl⟩ := List.mem_map.mp hk
  exact hn a ((h3 _ a).mp he)

/-- C88: splitting for `n` parties and threshold `t` succeeds in the same cases. -/
theorem C88_split_shamir_ok [Fact p.Prime] [Sample R (ZMod p)] (rd : Readers (ZMod p)) (pub : List String) (t n : Nat)
    (input : List (String × Json)) (rng : R) :
    (∃ s, splitInputShamir rd pub t n input rng = .ok s) ↔ ∀ e ∈ input, Readable rd e.2 := splitLoop_ok_iff

/-- C88: the same with Shamir shares of degree `t` for `n` parties. -/
theorem C88_split_shamir [Fact p.Prime] [Sample R (ZMod p)] {t n : Nat} {input : List (String × Json)}
    (hg : GoodNames input) {rng : R} {s : Fin n → ShamirSharedInput p}
    (h : splitInputShamir rd pub t n input rng = .ok s) (k : String) :
    (∀ a, Gives rd pub input k a → Held (IsShamir (ZMod p) t) (fun i => getKey k (s i)) a) ∧
    ((∀ a, ¬ Gives rd pub input k a) → ∀ i, getKey k (s i) = none) := by
  obtain ⟨m, h1, h2, h3⟩ := split_spec (Sh := IsShamir (ZMod p) t) (fun v rng => by
    obtain ⟨x, hx, hs⟩ := Shamir.share_isShamir (F := ZMod p) (n := n) v t rng
    simpa [hx] using hs) hg h
  refine ⟨fun a ha => h1.held ((getKey_iff h2).mpr ((h3 k a).mpr ha)), fun hn => h1.absent (getKey_none.mpr fun hk => ?_)⟩
  obtain ⟨⟨_, a⟩, he, rfl⟩ := List.mem_map.mp hk
  exact hn a ((h3 _ a).mp he)

/-- C88: a party merges maps if and only if entries with the same name in two of them belong to a public input and are
equal; the result is the union. -/
theorem C88_merge {F A : Type} [DecidableEq F] [DecidableEq A] (pub : List String)
    {maps : List (List (String × InputVal F A))} (hm : ∀ m ∈ maps, (m.map Prod.fst).Nodup) :
    ((∃ r, mergeInputShares pub maps = .ok r) ↔ maps.Pairwise fun m m' =>
      ∀ k a a', (k, a) ∈ m → (k, a') ∈ m' → String.ofList (k.toList.takeWhile (· ≠ '[')) ∈ pub ∧ a = a') ∧
    ∀ r, mergeInputShares pub maps = .ok r → (r.map Prod.fst).Nodup ∧ ∀ e, e ∈ r ↔ ∃ m ∈ maps, e ∈ m := by
  constructor
  · have h := mergeFold_iff (pub := pub) (es := maps.flatten) (r := []) (by simp)
    refine h.trans ?_
    rw [List.pairwise_flatten]
    have hw : ∀ m ∈ maps, m.Pairwise (Comp pub) := fun m h =>
      (List.pairwise_map.mp (hm m h)).imp fun hne he => absurd he hne
    constructor
    · rintro ⟨-, -, h⟩
      exact h.imp fun h k a a' h1 h2 => h (k, a) h1 (k, a') h2 rfl
    · intro h
      refine ⟨by simp, hw, h.imp fun h => ?_⟩
      rintro ⟨k, a⟩ h1 ⟨k', a'⟩ h2 hk
      cases hk
      exact h k a a' h1 h2
  · intro r hr
    obtain ⟨h1, h2⟩ := mergeFold_mem (by simp) hr
    exact ⟨h1, fun e => by rw [h2, List.mem_flatten]; simp⟩

/-- C88: several users split their inputs and every party merges what it gets.  If the inputs agree, all parties succeed,
and have the public values and sharings of the secret values of all users; otherwise all of them fail. -/
theorem C88_users [Sample R (ZMod p)] {users : List (List (String × Json))}
    {ss : List (PartyID → Rep3SharedInput p)} (hg : ∀ u ∈ users, GoodNames u)
    (h : List.Forall₂ (fun u s => ∃ rng : R, splitInput rd pub u rng = .ok s) users ss) :
    (users.Pairwise (Agree rd pub) → ∃ r : PartyID → Rep3SharedInput p, (∀ i, mergeInputShares pub (ss.map (· i)) = .ok (r i)) ∧
      ∀ k, (∀ u ∈ users, ∀ a, Gives rd pub u k a → Held IsShare (fun i => getKey k (r i)) a) ∧
        ((∀ u ∈ users, ∀ a, ¬ Gives rd pub u k a) → ∀ i, getKey k (r i) = none)) ∧
    (¬ users.Pairwise (Agree rd pub) → ∃ e, ∀ i, mergeInputShares pub (ss.map (· i)) = .error e) := by
  obtain ⟨h1, h2⟩ := merge_users (Sh := IsShare) (share := shareElement (R := R)) shareElement_isShare hg h
  refine ⟨fun hp => ?_, h2⟩
  obtain ⟨r, m, h3, h4, h5, h6⟩ := h1 hp
  refine ⟨r, h3, fun k => ⟨fun u hu a ha => ?_, fun hn => h4.absent (getKey_none.mpr fun hk => ?_)⟩⟩
  · exact h4.held ((getKey_iff h5).mpr ((h6 k a).mpr ⟨u, hu, ha⟩))
  · obtain ⟨⟨_, a⟩, he, rfl⟩ := List.mem_map.mp hk
    obtain ⟨u, hu, ha⟩ := (h6 _ a).mp he
    exact hn u hu a ha

/-! ## C89 -/

section

variable {M J : Type} {w : Nat} {t : A2BType} {st st₁ : PartyID → Rep3State R}
  [Fact p.Prime] [HasSqrt (ZMod p)] [Sample R (ZMod p)] [Codec M (List (ZMod p))]
  [Sample R (BitVec w)] [UintCodec M w] [Yao.YaoRng R] [Yao.YaoNet M] [Codec J (Share (BitVec w))]

/-- The marked inputs of the VM. -/
abbrev vmInputs (ins : List (String × InputVal (ZMod p) (ZMod p))) : List (String × VmVal (ZMod p) (ZMod p)) :=
  ins.map (Prod.map id InputVal.toVm)

/-- C89: users split their inputs, the parties merge them and extend the witness.  If the marked run on the union of the
inputs succeeds, the parties get its public values and shares of its witness.  As many inputs are public as there are
public entries. -/
theorem C89_collaborative (ho : p % 2 = 1) (hw : modBits p + 2 ≤ w) (hH : Yao.HashSeparates (Yao.YaoNet.hash M))
    {c : RefCfg} (prog : Program) (ctx : Ctx (ZMod p)) (config : List Bool) {fuel fuel' : Nat} (hf : fuel ≤ fuel')
    {users : List (List (String × Json))} {ss : List (PartyID → Rep3SharedInput p)}
    (hg : ∀ u ∈ users, GoodNames u)
    (h : List.Forall₂ (fun u s => ∃ rng : R, splitInput rd pub u rng = .ok s) users ss) (ha : users.Pairwise (Agree rd pub))
    {ins : List (String × InputVal (ZMod p) (ZMod p))} (hu : Union rd pub users ins) {pv wit : List (ZMod p)}
    (hr : run (ref p c) prog ctx config fuel (vmInputs ins) (countPublic ins) = .ok (pv, wit))
    (hst : Corr t st) (hst₁ : Corr t st₁) :
    ∃ r : PartyID → Rep3SharedInput p, (∀ i, mergeInputShares pub (ss.map (· i)) = .ok (r i)) ∧
      EnsuresTwoOr (c.randomized = true) (M := M) (J := J)
        (fun i => generateWitness (rep3 w) prog ctx config fuel' (r i)) st st₁
        (fun z s₀ s₁ => HoldWitness z pv wit ∧ Corr t s₀ ∧ Corr t s₁) := by
  obtain ⟨r, m, h1, h2, h3⟩ :=
    (merge_users (Sh := IsShare) (share := shareElement (R := R)) shareElement_isShare hg h).1 ha
  have hp := union_perm hu h3
  refine ⟨r, h1, ?_⟩
  have hn : ∀ i, countPublic (r i) = countPublic ins := fun i => by
    rw [h2.count]
    unfold countPublic
    exact ((hp.filter _).length_eq).symm
  have e : (fun i => generateWitness (rep3 (R := R) (M := M) (J := J) (p := p) w) prog ctx config fuel' (r i)) =
      fun i => run (rep3 w) prog ctx config fuel' ((r i).map (Prod.map id InputVal.toVm)) (countPublic ins) := by
    funext i
    rw [generateWitness, hn]
  rw [e]
  refine C84_collaborative ho hw hH prog ctx config hf h2.inputs (countPublic ins) ?_ hst hst₁
  rw [← hr]
  exact (run_perm _ prog ctx config fuel (hp.map _) (by simpa [List.map_map, Function.comp_def] using hu.1) _).symm

/-- C89: for compiled circuits, if the checks of C85 succeed, what the parties get is the witness that the circuit has by
its meaning on the union of the inputs; the first `1 + outputs + public entries` values of it are opened. -/
theorem C89_meaning (ho : p % 2 = 1) (hw : modBits p + 2 ≤ w) (hH : Yao.HashSeparates (Yao.YaoNet.hash M))
    {c : RefCfg} (prog : Program) {ctx : Ctx (ZMod p)} (hc : Compiled ctx) (hna : NoAccel ctx) (config : List Bool) {fuel : Nat}
    {users : List (List (String × Json))} {ss : List (PartyID → Rep3SharedInput p)}
    (hg : ∀ u ∈ users, GoodNames u)
    (h : List.Forall₂ (fun u s => ∃ rng : R, splitInput rd pub u rng = .ok s) users ss) (ha : users.Pairwise (Agree rd pub))
    {ins : List (String × InputVal (ZMod p) (ZMod p))} (hu : Union rd pub users ins)
    (hgi : GoodInputs prog ((vmInputs ins).map (Prod.map id VmVal.val))) {res : List (ZMod p) × List (ZMod p)}
    (hr : runC (ref p c) noSecret prog ctx config fuel (vmInputs ins) (countPublic ins) = .ok res)
    (hst : Corr t st) (hst₁ : Corr t st₁) :
    ∃ (r : PartyID → Rep3SharedInput p) (pv wit : List (ZMod p)) (enough : Nat), (∀ i, mergeInputShares pub (ss.map (· i)) = .ok (r i)) ∧
      Witness prog ctx ((vmInputs ins).map (Prod.map id VmVal.val)) (countPublic ins) pv wit ∧
      ∀ fuel' ≥ enough, EnsuresTwoOr (c.randomized = true) (M := M) (J := J)
        (fun i => generateWitness (rep3 w) prog ctx config fuel' (r i)) st st₁
        (fun z s₀ s₁ => HoldWitness z pv wit ∧ Corr t s₀ ∧ Corr t s₁) := by
  obtain ⟨k, hk⟩ := C85_plain prog hc config (vmInputs ins) (countPublic ins) hr
  obtain ⟨r, h1, -⟩ := C89_collaborative (M := M) (J := J) ho hw hH prog ctx config (le_refl fuel) hg h ha hu (run_of_runC hr)
    hst hst₁
  refine ⟨r, res.1, res.2, fuel, h1, (C86_witness ho hc hna prog config hgi _ _ _).mp ⟨k, hk k (le_refl k)⟩, fun f hf => ?_⟩
  obtain ⟨r', h1', h2⟩ := C89_collaborative (M := M) (J := J) ho hw hH prog ctx config hf hg h ha hu (run_of_runC hr) hst hst₁
  have : r = r' := funext fun i => Except.ok.inj ((h1 i).symm.trans (h1' i))
  rw [this]
  exact h2

end

/-! ## Instances -/

namespace InputDemo

/-- Readers for the numbers in the examples. -/
def rd7 : Readers F7 where
  dec
    | ['1'] => some 1
    | ['3'] => some 3
    | ['5'] => some 5
    | _ => none
  hex
    | ['1', '1'] => some 17
    | _ => none

/-- `{"a": "3", "b": "5"}` -/
def honest : List (String × Json) := [("a", .str "3"), ("b", .str "5")]

/-- `{"a": ["1"]}` -/
def extra : List (String × Json) := [("a", .arr [.str "1"])]

/-- `{"c": [["-0x11", "?"], true]}` -/
def nested : List (String × Json) := [("c", .arr [.arr [.str "-0x11", .str "?"], .bool true])]

theorem good_honest : GoodNames honest := ⟨by decide, by decide⟩

theorem good_extra : GoodNames extra := ⟨by decide, by decide⟩

theorem good_nested : GoodNames nested := ⟨by decide, by decide⟩

/-- `-17 = 4`, and the second element is missing. -/
example : parseEntry rd7 "c" (.arr [.arr [.str "-0x11", .str "?"], .bool true]) = .ok [("c[0]", 4), ("c[2]", 1)] := rfl

example : ∀ e ∈ nested, Readable rd7 e.2 := (C88_split_ok (R := Nat) rd7 [] nested 0).mp ⟨_, rfl⟩

/-- The parties share `4` under the name `c[0]`. -/
example (rng : Nat) {s : PartyID → Rep3SharedInput 7} (h : splitInput rd7 ["a"] nested rng = .ok s) :
    ∃ x, IsShare x (4 : F7) ∧ ∀ i, getKey "c[0]" (s i) = some (.shared (x i)) :=
  (C88_split good_nested h "c[0]").1 (.shared 4)
    (.secret (List.mem_singleton.mpr rfl) ((C88_read (rd := rd7) (name := "c") rfl).2 "c[0]" 4 |>.mp (List.mem_cons_self ..))
      (by decide))

/-- Two users with one and two secrets. -/
theorem agree_nested : [honest, nested].Pairwise (Agree rd7 ["a"]) :=
  (union_of_merge (ms := [_, _]) (ins := [("a", .pub 3), ("b", .shared 5), ("c[0]", .shared 4), ("c[2]", .shared 1)])
    (by simpa using ⟨good_honest, good_nested⟩) (.cons rfl (.cons rfl .nil)) rfl).1

/-- A user who sends a secret again. -/
example : ¬ [honest, honest].Pairwise (Agree rd7 ["a"]) := by
  intro h
  obtain ⟨v, h, -⟩ := (List.pairwise_pair.mp h) "b" (.shared 5) (.shared 5)
    (.secret (name := "b") (j := .str "5") (by simp [honest]) (((C88_read (rd := rd7) (name := "b") rfl).2 "b" 5).mp
      (List.mem_cons_self ..)) (by decide))
    (.secret (name := "b") (j := .str "5") (by simp [honest]) (((C88_read (rd := rd7) (name := "b") rfl).2 "b" 5).mp
      (List.mem_cons_self ..)) (by decide))
  cases h

theorem union_honest : [honest].Pairwise (Agree rd7 ["a"]) ∧
    Union rd7 ["a"] [honest] [("a", .pub 3), ("b", .shared 5)] :=
  union_of_merge (ms := [_]) (by simpa using good_honest) (.cons rfl .nil) rfl

theorem union_extra : [honest, extra].Pairwise (Agree rd7 ["a"]) ∧
    Union rd7 ["a"] [honest, extra] [("a", .pub 3), ("b", .shared 5), ("a[0]", .pub 1)] :=
  union_of_merge (ms := [_, _]) (by simpa using ⟨good_honest, good_extra⟩) (.cons rfl (.cons rfl .nil)) rfl

end InputDemo

open InputDemo VmDemo

/-- The circuit `for (var i = 0; i != 2; i++) { out += a * b; }` with the inputs of one user. -/
example (t : A2BType) {ss : List (PartyID → Rep3SharedInput 7)}
    (h : List.Forall₂ (fun u s => ∃ rng : Nat, splitInput rd7 ["a"] u rng = .ok s) [honest] ss) :
    ∃ (r : PartyID → Rep3SharedInput 7) (pv wit : List F7) (enough : Nat),
      (∀ i, mergeInputShares ["a"] (ss.map (· i)) = .ok (r i)) ∧
      Witness demoProgram (demoCtx (loopStmt.code ++ [.ret])) [("a", 3), ("b", 5)] 1 pv wit ∧
      ∀ fuel' ≥ enough, EnsuresTwoOr (false = true) (M := Msg) (J := Res)
        (fun i => generateWitness (rep3 8) demoProgram (demoCtx (loopStmt.code ++ [.ret])) [] fuel' (r i))
        (statesOf t) (statesOf t) (fun z s₀ s₁ => HoldWitness z pv wit ∧ Corr t s₀ ∧ Corr t s₁) :=
  C89_meaning (M := Msg) (J := Res) (w := 8) (c := ⟨false, false⟩) (fuel := 100) rfl (by decide) demo_hash demoProgram
    (compiled_demo loopStmt) (noAccel_demo loopStmt) [] (by simpa using good_honest) h union_honest.1 union_honest.2
    good_demo (res := ([1, 2, 3], [5])) rfl (corr_statesOf t) (corr_statesOf t)

/-- C89: the public input `a` is `3` and the secret input `b` is `5`: the parties open the constant, the output `2` and
`a`, and hold shares of `b`. -/
theorem C89_opened (t : A2BType) {ss : List (PartyID → Rep3SharedInput 7)}
    (h : List.Forall₂ (fun u s => ∃ rng : Nat, splitInput rd7 ["a"] u rng = .ok s) [honest] ss) :
    ∃ r : PartyID → Rep3SharedInput 7, (∀ i, mergeInputShares ["a"] (ss.map (· i)) = .ok (r i)) ∧
      EnsuresTwo (M := Msg) (J := Res) (fun i => generateWitness (rep3 8) demoProgram (demoCtx loopBody) [] 100 (r i))
        (statesOf t) (statesOf t) (fun z s₀ s₁ => HoldWitness z [1, 2, 3] [5] ∧ Corr t s₀ ∧ Corr t s₁) := by
  obtain ⟨r, h1, h2⟩ := C89_collaborative (M := Msg) (J := Res) (w := 8) (c := ⟨false, false⟩) rfl (by decide) demo_hash
    demoProgram (demoCtx loopBody) [] (le_refl 100) (by simpa using good_honest) h union_honest.1 union_honest.2
    (pv := [1, 2, 3]) (wit := [5]) rfl (corr_statesOf t) (corr_statesOf t)
  simp only [Bool.false_eq_true] at h2
  exact ⟨r, h1, h2.ensures⟩

/-- C89: the number of opened values is the number of public *entries*, also of those that the circuit does not have.
Another user adds an entry `a[0]`, the parties merge the inputs without complaint, and open the secret `b` of the first
user. -/
theorem C89_extra_public_entry (t : A2BType) {ss : List (PartyID → Rep3SharedInput 7)}
    (h : List.Forall₂ (fun u s => ∃ rng : Nat, splitInput rd7 ["a"] u rng = .ok s) [honest, extra] ss) :
    ∃ r : PartyID → Rep3SharedInput 7, (∀ i, mergeInputShares ["a"] (ss.map (· i)) = .ok (r i)) ∧
      EnsuresTwo (M := Msg) (J := Res) (fun i => generateWitness (rep3 8) demoProgram (demoCtx loopBody) [] 100 (r i))
        (statesOf t) (statesOf t) (fun z s₀ s₁ => HoldWitness z [1, 2, 3, 5] [] ∧ Corr t s₀ ∧ Corr t s₁) := by
  obtain ⟨r, h1, h2⟩ := C89_collaborative (M := Msg) (J := Res) (w := 8) (c := ⟨false, false⟩) rfl (by decide) demo_hash
    demoProgram (demoCtx loopBody) [] (le_refl 100) (by simpa using ⟨good_honest, good_extra⟩) h union_extra.1 union_extra.2
    (pv := [1, 2, 3, 5]) (wit := []) rfl (corr_statesOf t) (corr_statesOf t)
  simp only [Bool.false_eq_true] at h2
  exact ⟨r, h1, h2.ensures⟩

/-- The splits exist. -/
example : ∃ ss, List.Forall₂ (fun u s => ∃ rng : Nat, splitInput rd7 ["a"] u rng = .ok s) [honest, extra] ss :=
  ⟨[_, _], .cons ⟨4, rfl⟩ (.cons ⟨5, rfl⟩ .nil)⟩

end Verif.Props
