import Verif.Scalar

/-!
# Model of the filter of `BufferedAlphaNoise` (core/noise.hpp)

Simplifications: the code computes in `float` and converts the result to `T`, the model computes in `T`; the transforms of the
external library kissfft are given by their defining sums (forward with a negative exponent, inverse without normalisation).
-/

/-- `std::complex` -/
structure Cplx (T : Type) where
  re : T
  im : T

namespace Cplx
variable {T : Type} [Scalar T]

/-- conversion of a real value -/
def ofReal (x : T) : Cplx T := ⟨x, 0⟩
def add (a b : Cplx T) : Cplx T := ⟨a.re + b.re, a.im + b.im⟩
def mul (a b : Cplx T) : Cplx T := ⟨a.re * b.re - a.im * b.im, a.re * b.im + a.im * b.re⟩
/-- division by `(2.0, 0)` -/
def half (a : Cplx T) : Cplx T := ⟨a.re / 2, a.im / 2⟩
/-- `x 0 + ... + x (n-1)` -/
def sum : Nat → (Nat → Cplx T) → Cplx T
  | 0, _ => ofReal 0
  | n + 1, x => (sum n x).add (x n)

end Cplx

namespace AlphaFilter
variable {T : Type} [Scalar T]

/-- conversion of an integer -/
def nat (n : Nat) : T := Scalar.lit n

/-- kissfft's forward transform of `n` points. -/
def forward (n : Nat) (x : Nat → Cplx T) (k : Nat) : Cplx T :=
  Cplx.sum n fun j => (x j).mul
    ⟨Scalar.cos (2 * Scalar.pi * nat (j * k) / nat n), -(Scalar.sin (2 * Scalar.pi * nat (j * k) / nat n))⟩

/-- kissfft's inverse transform of `n` points (without the factor 1/n). -/
def inverse (n : Nat) (x : Nat → Cplx T) (k : Nat) : Cplx T :=
  Cplx.sum n fun j => (x j).mul
    ⟨Scalar.cos (2 * Scalar.pi * nat (j * k) / nat n), Scalar.sin (2 * Scalar.pi * nat (j * k) / nat n)⟩

/-- noise.hpp:172-176: the filter weights, entry `i` of `bufferColoured`. -/
def weight (alpha : T) : Nat → T
  | 0 => 1
  | i + 1 => weight alpha i * ((0.5 * alpha + nat i) / nat (i + 1))

/-- noise.hpp:192-198: the first `bufferSize` entries, then zeros. -/
def padded (bufferSize : Nat) (x : Nat → T) (i : Nat) : Cplx T :=
  if i < bufferSize then .ofReal (x i) else .ofReal 0

/-- noise.hpp:200-208: product of the two transforms in the first `bufferSize` bins (the other bins are overwritten later). -/
def product (bufferSize : Nat) (alpha : T) (white : Nat → T) (k : Nat) : Cplx T :=
  (forward (2 * bufferSize) (padded bufferSize (weight alpha)) k).mul (forward (2 * bufferSize) (padded bufferSize white) k)

/-- noise.hpp:204-217: the product with the first and the last kept bin halved, one after the other, and zeros behind. -/
def spectrum (bufferSize : Nat) (alpha : T) (white : Nat → T) (k : Nat) : Cplx T :=
  let p := product bufferSize alpha white
  let p := fun k => if k = 0 then (p k).half else p k
  let p := fun k => if k = bufferSize - 1 then (p k).half else p k
  if k < bufferSize then p k else .ofReal 0

/-- noise.hpp:189-226, `fillBuffer`: entry `n` of `result`, from the draws `white`. -/
def fill (bufferSize : Nat) (alpha : T) (white : Nat → T) (n : Nat) : T :=
  (inverse (2 * bufferSize) (spectrum bufferSize alpha white) n).re / nat bufferSize

end AlphaFilter
