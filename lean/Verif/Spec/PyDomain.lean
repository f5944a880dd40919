import Mathlib.Analysis.SpecialFunctions.Trigonometric.Basic
import Mathlib.Analysis.SpecialFunctions.Trigonometric.Deriv

/-!
Specification of domain-wall results, independent of the model: the state vector holds position, angle and width of each wall.
-/

namespace Spec

/-- Position of wall `i`. -/
def wallX (y : List ℝ) (i : ℕ) : ℝ := y.getD (3 * i) 0
/-- Angle of wall `i`. -/
def wallPhi (y : List ℝ) (i : ℕ) : ℝ := y.getD (3 * i + 1) 0
/-- Width of wall `i`. -/
def wallWidth (y : List ℝ) (i : ℕ) : ℝ := y.getD (3 * i + 2) 0

/-- The mean velocity of wall `i` over a step. -/
noncomputable def stepVelocity (y yOld : List ℝ) (t tOld : ℝ) (i : ℕ) : ℝ := (wallX y i - wallX yOld i) / |t - tOld|

/-- The pinning potential of height `V0` and period `p`. -/
noncomputable def pinPotential (V0 p X : ℝ) : ℝ := V0 * Real.sin (Real.pi * X / p) ^ 2

/-- The edge potential of a strip of length `L`. -/
noncomputable def edgePotential (V0 L X : ℝ) : ℝ := V0 * Real.cosh ((X - L / 2) / (L / 2)) ^ 6

/-- The width at which exchange and anisotropy balance for a wall at angle `φ`. -/
noncomputable def balancedWidth (A Ku Kp φ : ℝ) : ℝ := √(A / (Ku + Kp * Real.sin φ ^ 2))

end Spec
