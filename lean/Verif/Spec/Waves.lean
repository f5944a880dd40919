import Mathlib.Analysis.SpecialFunctions.Trigonometric.Basic

/-! # Reference waveforms, written independently of the model (reals) -/
namespace Spec

/-- Rectangular window on a closed interval. -/
noncomputable def window (a lo hi t : ℝ) : ℝ := Set.indicator (Set.Icc lo hi) (fun _ => a) t

/-- Unit pulse of a given duty cycle: the fractional part of the elapsed periods is at most the duty. -/
noncomputable def dutyPulse (a period duty t : ℝ) : ℝ := if Int.fract (t / period) ≤ duty then a else 0

/-- Clamp to the unit interval. -/
noncomputable def clamp01 (x : ℝ) : ℝ := max 0 (min 1 x)

/-- Trapezoid with ramps of length `e` and a plateau of length `s` starting at `t0`. -/
noncomputable def trapezoid (a t0 e s t : ℝ) : ℝ :=
  a * clamp01 (min ((t - t0) / e) ((t0 + 2 * e + s - t) / e))

end Spec
