import Mathlib.Algebra.Field.Defs
import Mathlib.Algebra.BigOperators.Group.List.Basic
import Mathlib.Data.Nat.Log

/-!
# Model: the Fourier transforms the Groth16 prover relies on

The transforms are part of the library `taceo_ark_algebra` and not of the repository.  They are modelled by what their
documentation says they compute; the algorithm of the library is not modelled.  All functions work on vectors of field
elements and on vectors of shares: `A` is any type with an addition and a multiplication by field elements.
-/

namespace Verif.Groth16

variable {F A : Type}

/-- The number with the lowest `k` bits of `i` in reverse order. -/
def revBits : Nat → Nat → Nat
  | 0, _ => 0
  | k + 1, i => (i % 2) * 2 ^ k + revBits k (i / 2)

/-- `taceo_ark_algebra::fft::bit_reverse` on a vector whose length is a power of two. -/
def bitReverse [Zero A] (l : List A) : List A :=
  (List.range l.length).map fun i => l.getD (revBits (Nat.log2 l.length) i) 0

variable [Field F] [Zero A] [Add A] [SMul F A]

/-- Evaluation at `1, w, w², …` of the polynomial with coefficients `l`. -/
def fft (w : F) (l : List A) : List A :=
  (List.range l.length).map fun j => ((List.range l.length).map fun i => w ^ (i * j) • l.getD i 0).sum

/-- The inverse of `fft`. -/
def ifft (w : F) (l : List A) : List A :=
  (List.range l.length).map fun i =>
    ((List.range l.length).map fun j => ((l.length : F)⁻¹ * w⁻¹ ^ (i * j)) • l.getD j 0).sum

/-- `Domain::ifft_in_to_out`: the coefficients come out in bit-reversed order. -/
def ifftInToOut (w : F) (l : List A) : List A := bitReverse (ifft w l)

/-- `Domain::fft_out_to_in`: the coefficients are given in bit-reversed order. -/
def fftOutToIn (w : F) (l : List A) : List A := fft w (bitReverse l)

end Verif.Groth16
