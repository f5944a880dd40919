import Mathlib.Analysis.SpecialFunctions.Trigonometric.Basic

/-!
Specification of line currents, independent of the model.
-/

namespace Spec

/-- The field of an infinite straight wire at a given distance. -/
noncomputable def wireField (I r : ℝ) : ℝ := I / (2 * Real.pi * r)

/-- Distance in the plane. -/
noncomputable def planeDist (x₁ y₁ x₂ y₂ : ℝ) : ℝ := √((x₁ - x₂) ^ 2 + (y₁ - y₂) ^ 2)

/-- The centre of cell `k` in a row of cells of width `d` that starts at zero. -/
noncomputable def cellCentre (k : ℕ) (d : ℝ) : ℝ := (k + 1 / 2) * d

end Spec
