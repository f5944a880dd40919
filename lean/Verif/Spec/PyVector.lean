import Verif.Model.CVector

/-!
Specifications for the Python vector helpers.
-/

namespace Spec

/-- Euclidean length -/
noncomputable def magnitude (v : CVec ℝ) : ℝ := Real.sqrt (v.x ^ 2 + v.y ^ 2 + v.z ^ 2)

/-- point at polar angle `θ` and azimuth `φ` (degrees) on the unit sphere -/
noncomputable def unitAt (θ φ : ℝ) : CVec ℝ :=
  ⟨Real.sin (θ * Real.pi / 180) * Real.cos (φ * Real.pi / 180), Real.sin (θ * Real.pi / 180) * Real.sin (φ * Real.pi / 180),
   Real.cos (θ * Real.pi / 180)⟩

/-- `n` equally spaced values from `a` to `b`, both included -/
noncomputable def spaced (a b : ℝ) (n : Nat) (i : Nat) : ℝ := a + (b - a) * i / (n - 1)

end Spec
