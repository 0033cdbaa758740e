import Verif.Shamir.OpenLemmas

/-!
# Lemmas: Shamir shares of curve points
-/

namespace Verif.Shamir

variable {n : Nat} {F V R M : Type} [Field F] [AddCommGroup V] [Module F V]

theorem spec_openPointAndField [Codec M (V × F)] {t : Nat} {st : Fin n → ShamirState n R F}
    (hst : ShCorr t st) {a : Fin n → V} {b : Fin n → F} {P : V} {k : F} (ha : IsShamir F t a P)
    (hb : IsShamir F t b k) :
    Spec (M := M) (fun i => openPointAndField (a i) (b i)) st
      (fun r st' => (r = fun _ => (P, k)) ∧ st' = st) := by
  unfold openPointAndField
  refine spec_get_bind ?_
  simp only [hst.rng.thr]
  have := hst.rng.bound
  refine Spec.bind (spec_broadcastNext (by omega) (by omega) fun i => (a i, b i)) ?_
  rintro r st' ⟨rfl, rfl⟩
  refine Spec.pure ⟨?_, rfl⟩
  funext i
  rw [hst.lagT, List.map_map, List.map_map]
  congr 1
  · exact reconstruct_open hst.rng.field ha (by omega) (by omega) i
  · exact reconstruct_open hst.rng.field hb (by omega) (by omega) i

theorem spec_openPointAndFieldMany [Codec M (List V × List F)] {t : Nat}
    {st : Fin n → ShamirState n R F} (hst : ShCorr t st) {a : Fin n → List V} {b : Fin n → List F}
    {Ps : List V} {ks : List F} (ha : IsShamirs F t a Ps) (hb : IsShamirs F t b ks) :
    Spec (M := M) (fun i => openPointAndFieldMany (a i) (b i)) st
      (fun r st' => (r = fun _ => (Ps, ks)) ∧ st' = st) := by
  unfold openPointAndFieldMany
  refine spec_get_bind ?_
  simp only [hst.rng.thr]
  have := hst.rng.bound
  refine Spec.bind (spec_broadcastNext (by omega) (by omega) fun i => (a i, b i)) ?_
  rintro r st' ⟨rfl, rfl⟩
  choose rows h1 h2 using fun i => spec_openRows (t := 0) (M := M) (S := ShamirState n R F)
    hst.rng.field ha (num := t + 1) (by omega) (by omega) i
  choose rows' h1' h2' using fun i => spec_openRows (t := 0) (M := M) (S := ShamirState n R F)
    hst.rng.field hb (num := t + 1) (by omega) (by omega) i
  simp only [List.map_map, Function.comp_def]
  simp only [h1 _ _ (ha.length _), h1' _ _ (hb.length _), pure_bind, hst.lagT]
  refine Spec.pure ⟨funext fun i => ?_, rfl⟩
  rw [h2, h2']

theorem msm_isShamir {t : Nat} {b : Fin n → List F} {ks : List F} (points : List V)
    (hb : IsShamirs F t b ks) :
    IsShamir F t (fun i => msmPublicPoints points (b i)) (msmPublicPoints points ks) := by
  obtain ⟨l, rfl, hl⟩ := hb
  induction points generalizing l ks with
  | nil => simpa [msmPublicPoints] using IsShamir.const (F := F) (n := n) t (0 : V)
  | cons Q points ih =>
    cases hl with
    | nil => simpa [msmPublicPoints] using IsShamir.const (F := F) (n := n) t (0 : V)
    | @cons s k l ks h hl =>
      have := (h.linear (LinearMap.toSpanSingleton F V Q)).add (ih _ hl)
      simpa [msmPublicPoints] using this

end Verif.Shamir
