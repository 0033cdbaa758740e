import Verif.Yao.GarbleLemmas
import Verif.Yao.CircuitLemmas

/-!
# From relational specifications to `Computes`
-/

namespace Verif.Yao

open Circ

theorem enc_encode (d z : Label) (x : Bool) : Enc d z (encode d z x) x := by
  unfold Enc encode
  cases x
  · exact BitVec.xor_zero.symm
  · rfl

theorem all3_encodes (d : Label) : ∀ {zs : List Label} {xs : List Bool}, zs.length = xs.length →
    All3 (Enc d) zs (encodes d zs xs) xs
  | [], [], _ => .nil
  | _ :: _, _ :: _, h => .cons (enc_encode _ _ _) (all3_encodes d (by simpa using h))

theorem encodes_of_all3 {d : Label} {zs es : List Label} {xs : List Bool} (h : All3 (Enc d) zs es xs) :
    es = encodes d zs xs := by
  induction h with
  | nil => rfl
  | @cons a b c as bs cs h _ ih =>
    have : b = encode d a c := by
      unfold Enc at h
      rw [h]
      cases c
      · exact BitVec.xor_zero
      · rfl
    rw [this, ih]
    rfl

theorem all3_bundles (d : Label) : ∀ {zs : List (List Label)} {xs : List (List Bool)},
    zs.map List.length = xs.map List.length →
    All3 (All3 (Enc d)) zs (List.zipWith (encodes d) zs xs) xs
  | [], [], _ => .nil
  | _ :: _, _ :: _, h => by
    simp only [List.map_cons, List.cons.injEq] at h
    exact .cons (all3_encodes d h.1) (all3_bundles d h.2)

theorem all3_plain (l : List Bool) : All3 (fun a b x : Bool => a = x ∧ b = x) l l l := All3.refl

theorem all3_plains : ∀ (l : List (List Bool)), All3 (All3 fun a b x : Bool => a = x ∧ b = x) l l l
  | [] => .nil
  | x :: l => .cons (all3_plain x) (all3_plains l)

theorem All3.plains_eq {a b c : List (List Bool)}
    (h : All3 (All3 fun a b x : Bool => a = x ∧ b = x) a b c) : a = c := by
  induction h with
  | nil => rfl
  | cons h _ ih => rw [h.plain_eq, ih]

theorem inStep_fresh {R : Type} (d : Label) (rng : R) (blocks : List Label) :
    InStep d (freshGarbler d rng) (freshEvaluator blocks) :=
  ⟨rfl, rfl, rfl, trivial, trivial⟩

/-- A relational specification with fixed outputs is `Computes`. -/
theorem Computes.of_spec {c : Circuit} {ins : List (List Bool)} {out : List Bool}
    (h : ∀ (I J : Type) (E : I → J → Bool → Prop) (z : I) (z' : J) (as : List (List I))
      (bs : List (List J)), E z z' false → All3 (All3 E) as bs ins →
      CSpec E (fun r r' => All3 E r r' out) (c I z as) (c J z' bs)) :
    Computes c ins out := by
  constructor
  · obtain ⟨a, h1, h2⟩ := (h Bool Bool _ false false ins ins ⟨rfl, rfl⟩ (all3_plains ins)).plain' (P := fun a => a = out)
      (fun a b hq => hq.plain_eq)
    rw [h1, h2]
  · intro R _ H d rng zeros hd hl
    obtain ⟨zs, g', es, e', new, h1, h2, h3, -, h5⟩ :=
      (h Label Label (Enc d) 0 0 zeros _ (enc_encode d 0 false) (all3_bundles d hl)).adequate (R := R) H hd (freshGarbler d rng)
        (freshEvaluator []) (inStep_fresh d rng [])
    refine ⟨zs, g', { e' with circuit := [] }, h1, h5.len, ?_, rfl⟩
    have := h3 []
    rw [encodes_of_all3 h5] at this
    rw [h2]
    simpa [freshEvaluator, freshGarbler] using this

theorem ComputesNat.of_spec {c : Circuit} {ins : List (List Bool)} {n v : Nat} (hv : v < 2 ^ n)
    (h : ∀ (I J : Type) (E : I → J → Bool → Prop) (z : I) (z' : J) (as : List (List I))
      (bs : List (List J)), E z z' false → All3 (All3 E) as bs ins →
      CSpec E (fun r r' => ∃ out, All3 E r r' out ∧ out.length = n ∧ val out = v) (c I z as) (c J z' bs)) :
    ComputesNat c ins n v := by
  refine ⟨uintToBits v n, length_uintToBits _ _, by rw [val_uintToBits, Nat.mod_eq_of_lt hv], .of_spec ?_⟩
  intro I J E z z' as bs hz hab
  refine (h I J E z z' as bs hz hab).mono fun r r' hr => ?_
  obtain ⟨out, h1, h2, h3⟩ := hr
  have : out = uintToBits v n := by
    apply val_inj
    · rw [h2, length_uintToBits]
    · rw [h3, val_uintToBits, Nat.mod_eq_of_lt hv]
  rwa [← this]

theorem all3_two {I J : Type} {E : I → J → Bool → Prop} {as : List (List I)} {bs : List (List J)}
    {x y : List Bool} (h : All3 (All3 E) as bs [x, y]) :
    ∃ a b a' b', as = [a, b] ∧ bs = [a', b'] ∧ All3 E a a' x ∧ All3 E b b' y := by
  cases h with
  | cons h1 h =>
    cases h with
    | cons h2 h =>
      cases h
      exact ⟨_, _, _, _, rfl, rfl, h1, h2⟩

theorem all3_three {I J : Type} {E : I → J → Bool → Prop} {as : List (List I)} {bs : List (List J)}
    {x y z : List Bool} (h : All3 (All3 E) as bs [x, y, z]) :
    ∃ a b c a' b' c', as = [a, b, c] ∧ bs = [a', b', c'] ∧ All3 E a a' x ∧ All3 E b b' y ∧ All3 E c c' z := by
  cases h with
  | cons h1 h =>
    obtain ⟨a, b, a', b', rfl, rfl, h2, h3⟩ := all3_two h
    exact ⟨_, _, _, _, _, _, rfl, rfl, h1, h2, h3⟩

theorem all3_one {I J : Type} {E : I → J → Bool → Prop} {as : List (List I)} {bs : List (List J)}
    {x : List Bool} (h : All3 (All3 E) as bs [x]) :
    ∃ a a', as = [a] ∧ bs = [a'] ∧ All3 E a a' x := by
  cases h with
  | cons h1 h =>
    cases h
    exact ⟨_, _, rfl, rfl, h1⟩

theorem all3_sel {I J : Type} {E : I → J → Bool → Prop} {as : List (List I)} {bs : List (List J)}
    {b : Bool} {x y : List Bool} (h : All3 (All3 E) as bs [[b], x, y]) :
    ∃ c a b' c' a' b'', as = [[c], a, b'] ∧ bs = [[c'], a', b''] ∧ E c c' b ∧ All3 E a a' x ∧ All3 E b' b'' y := by
  cases h with
  | cons h1 h =>
    cases h with
    | cons h2 h =>
      cases h with
      | cons h3 h =>
        cases h
        cases h1 with
        | cons h1 h' =>
          cases h'
          exact ⟨_, _, _, _, _, _, rfl, rfl, h1, h2, h3⟩

/-- Two bundles. -/
theorem ComputesNat.two_of {f : (I : Type) → List I → List I → Circ I (List I)} {x y : List Bool} {n v : Nat}
    (hv : v < 2 ^ n)
    (h : ∀ {I J : Type} {E : I → J → Bool → Prop} {a a' b b'}, All3 E a a' x → All3 E b b' y →
      CSpec E (fun r r' => ∃ out, All3 E r r' out ∧ out.length = n ∧ val out = v) (f I a b) (f J a' b')) :
    ComputesNat (two f) [x, y] n v := by
  refine .of_spec hv fun I J E z z' as bs hz hab => ?_
  obtain ⟨a, b, a', b', rfl, rfl, h1, h2⟩ := all3_two hab
  exact h h1 h2

theorem ComputesNat.one_of {f : (I : Type) → List I → Circ I (List I)} {x : List Bool} {n v : Nat}
    (hv : v < 2 ^ n)
    (h : ∀ {I J : Type} {E : I → J → Bool → Prop} {a a'}, All3 E a a' x →
      CSpec E (fun r r' => ∃ out, All3 E r r' out ∧ out.length = n ∧ val out = v) (f I a) (f J a')) :
    ComputesNat (one f) [x] n v := by
  refine .of_spec hv fun I J E z z' as bs hz hab => ?_
  obtain ⟨a, a', rfl, rfl, h1⟩ := all3_one hab
  exact h h1

theorem Computes.two_of {f : (I : Type) → List I → List I → Circ I (List I)} {x y out : List Bool}
    (h : ∀ {I J : Type} {E : I → J → Bool → Prop} {a a' b b'}, All3 E a a' x → All3 E b b' y →
      CSpec E (fun r r' => All3 E r r' out) (f I a b) (f J a' b')) :
    Computes (two f) [x, y] out := by
  refine .of_spec fun I J E z z' as bs hz hab => ?_
  obtain ⟨a, b, a', b', rfl, rfl, h1, h2⟩ := all3_two hab
  exact h h1 h2

theorem Computes.sel_of {f : (I : Type) → I → List I → List I → Circ I (List I)} {b : Bool}
    {x y out : List Bool}
    (h : ∀ {I J : Type} {E : I → J → Bool → Prop} {c c' a a' b' b''}, E c c' b → All3 E a a' x →
      All3 E b' b'' y → CSpec E (fun r r' => All3 E r r' out) (f I c a b') (f J c' a' b'')) :
    Computes (sel f) [[b], x, y] out := by
  refine .of_spec fun I J E z z' as bs hz hab => ?_
  obtain ⟨c, a, b, c', a', b', rfl, rfl, h1, h2, h3⟩ := all3_sel hab
  exact h h1 h2 h3

end Verif.Yao
