import Verif.Model.Junction
import Verif.Lemmas.Vec
import Mathlib.Algebra.BigOperators.Group.Finset.Basic
import Mathlib.Analysis.SpecialFunctions.Trigonometric.Inverse

/-! Specification of the magnetoresistance models, independent of the model's loops. -/

namespace Spec

/-- Resistance of a junction whose two magnetisations enclose the angle `θ`. -/
noncomputable def gmr (Rp Rap θ : ℝ) : ℝ := Rp + (Rap - Rp) * Real.sin (θ / 2) ^ 2

/-- Angle between two unit vectors. -/
noncomputable def angle (m n : CVec ℝ) : ℝ := Real.arccos (m.x * n.x + m.y * n.y + m.z * n.z)

/-- magnetisation of layer `i` -/
noncomputable def magAt (j : Junction ℝ) (i : Nat) : CVec ℝ :=
  match j.layers[i]? with
  | some l => l.mag
  | none => ⟨0, 0, 0⟩

/-- longitudinal resistance of layer `i` of a strip -/
noncomputable def stripRx (j : Junction ℝ) (i : Nat) : ℝ :=
  j.Rx0.getD i 0 + j.AMR_X.getD i 0 * (magAt j i).x ^ 2 + j.SMR_X.getD i 0 * (magAt j i).y ^ 2

/-- transverse resistance of layer `i` of a strip -/
noncomputable def stripRy (j : Junction ℝ) (i : Nat) : ℝ :=
  j.Ry0.getD i 0 + j.AHE.getD i 0 * (magAt j i).z / 2
    + (j.AMR_Y.getD i 0 + j.SMR_Y.getD i 0) * (magAt j i).x * (magAt j i).y

/-- parallel combination of `n` resistances -/
noncomputable def parallel (n : Nat) (R : Nat → ℝ) : ℝ := 1 / ∑ i ∈ Finset.range n, 1 / R i

end Spec
