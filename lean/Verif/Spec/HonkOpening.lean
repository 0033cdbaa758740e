import Verif.Spec.Honk

/-!
# Specification: opening the columns of UltraHonk

The prover has committed to the columns of the table with a reference string of powers, and claims values of the multilinear extensions
of the columns.
-/

namespace Verif.Honk

variable {F G H : Type} [Field F] [AddCommGroup G] [Module F G] [AddCommGroup H] [Module F H]

/-- The reference string: the powers of a secret `τ` times the generator, and `τ` times the generator of the second group. -/
structure Srs (τ : F) (gen : G) (g2 g2x : H) (crs : List G) : Prop where
  powers : ∀ i P, crs[i]? = some P → P = τ ^ i • gen
  second : g2x = τ • g2

/-- The commitment to a column of `n` rows. -/
def commitment (crs : List G) (n : Nat) (f : Nat → F) : G := ∑ i ∈ Finset.range n, f i • crs.getD i 0

/-- The shifted columns hold the values of the next row, and the columns that are shifted begin with zero. -/
structure Shifted (n : Nat) (table : Col → Nat → F) : Prop where
  next : ∀ p ∈ [(Col.wl, Col.wlShift), (.wr, .wrShift), (.wo, .woShift), (.w4, .w4Shift), (.zPerm, .zPermShift)],
    ∀ i < n, table p.2 i = pad n (table p.1) (i + 1)
  first : ∀ c ∈ [Col.wl, .wr, .wo, .w4, .zPerm], table c 0 = 0

/-- The challenges `r` and `z` are none of the few values for which the verifier divides by zero. -/
structure GoodPoints (us : List F) (r z : F) : Prop where
  fold : ∀ j < us.length, r ^ 2 ^ j * (1 - us.getD j 0) + us.getD j 0 ≠ 0
  pos : ∀ j < us.length, z ≠ r ^ 2 ^ j
  neg : ∀ j < us.length, z ≠ -r ^ 2 ^ j

end Verif.Honk
