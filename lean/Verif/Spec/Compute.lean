import Mathlib.Analysis.SpecialFunctions.Complex.Arg
import Mathlib.Analysis.SpecialFunctions.Complex.Log
import Mathlib.Algebra.Order.BigOperators.Group.Finset
import Mathlib.Order.Interval.Finset.Nat

/-!
Specification of the spin-diode voltage and of the spectra: samples are functions of the row number.
-/

namespace Spec

/-- `s` is the first of the `n` rows whose time is not before `start`. -/
def FirstRow (t : ℕ → ℝ) (n : ℕ) (start : ℝ) (s : ℕ) : Prop := s < n ∧ start ≤ t s ∧ ∀ i < s, t i < start

/-- The mean over the rows `s ≤ i < n`. -/
noncomputable def mean (s n : ℕ) (x : ℕ → ℝ) : ℝ := (∑ i ∈ Finset.Ico s n, x i) / (n - s : ℕ)

/-- The rectified voltage: the mean of resistance times a current of frequency `f`, whose amplitude dissipates the given power (twice its
root mean square) in the mean resistance. -/
noncomputable def rectified (R t : ℕ → ℝ) (s n : ℕ) (f power : ℝ) : ℝ :=
  mean s n fun i => R i * (√(power / mean s n R) * Real.sin (2 * Real.pi * f * t i))

/-- Bin `k` of the transform of `m` samples. -/
noncomputable def transform (m : ℕ) (x : ℕ → ℝ) (k : ℕ) : ℂ :=
  ∑ i ∈ Finset.range m, (x i : ℂ) * Complex.exp (-(2 * Real.pi * Complex.I * (i * k : ℕ) / (m : ℕ)))

end Spec
