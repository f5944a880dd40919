import Verif.Model.Layer

/-!
Specifications of the layer physics, written independently of the model's control flow.
-/

namespace Spec
open Layer

/-- The same layer with all spin torques switched off. -/
def plainOf {T : Type} (l : Layer T) : Layer T := { l with includeSTT := false, includeSOT := false }

/-- Vector in direction `m` (documentation of "parallel"). -/
def Parallel (m h : CVec ℝ) : Prop := ∃ c : ℝ, h = ⟨c * m.x, c * m.y, c * m.z⟩

/-- Exchange energy per area of two layers: `-J m₁·m₂ - J₂ (m₁·m₂)²`. -/
noncomputable def iecEnergy (J J2 : ℝ) (m1 m2 : CVec ℝ) : ℝ :=
  -J * (m1.x * m2.x + m1.y * m2.y + m1.z * m2.z) - J2 * (m1.x * m2.x + m1.y * m2.y + m1.z * m2.z) ^ 2

/-- point at parameter `s` on the line through `m` in direction `v` -/
def line (m v : CVec ℝ) (s : ℝ) : CVec ℝ := ⟨m.x + s * v.x, m.y + s * v.y, m.z + s * v.z⟩

/-- unit vector in the x-y plane -/
noncomputable def planar (θ : ℝ) : CVec ℝ := ⟨Real.cos θ, Real.sin θ, 0⟩

/-- matrix times vector, divided by mu0 and multiplied by Ms: the stray field of a tensor -/
noncomputable def tensorField (N : Tensor ℝ) (Ms : ℝ) (m : CVec ℝ) : CVec ℝ :=
  let k := Ms / (1257 / 10 ^ 9)
  ⟨k * (N.r0.x * m.x + N.r0.y * m.y + N.r0.z * m.z), k * (N.r1.x * m.x + N.r1.y * m.y + N.r1.z * m.z),
   k * (N.r2.x * m.x + N.r2.y * m.y + N.r2.z * m.z)⟩

/-- scale a vector -/
noncomputable def smul (c : ℝ) (v : CVec ℝ) : CVec ℝ := ⟨c * v.x, c * v.y, c * v.z⟩

/-- uniaxial anisotropy field `(2K/Ms)(u·m)u` -/
noncomputable def anisField (u : CVec ℝ) (Ms K : ℝ) (m : CVec ℝ) : CVec ℝ :=
  smul (2 * K / Ms * (u.x * m.x + u.y * m.y + u.z * m.z)) u

/-- exchange field from a neighbour `c`: `(J + 2 J₂ (c·m)) c / (Ms d)` -/
noncomputable def exchangeField (Ms d J J2 : ℝ) (m c : CVec ℝ) : CVec ℝ :=
  smul ((J + 2 * J2 * (c.x * m.x + c.y * m.y + c.z * m.z)) / (Ms * d)) c

/-- interlayer DMI field from a neighbour `c`: `(c × D) / (Ms d)` -/
noncomputable def idmiField (Ms d : ℝ) (D c : CVec ℝ) : CVec ℝ :=
  smul (1 / (Ms * d)) ⟨c.y * D.z - c.z * D.y, c.z * D.x - c.x * D.z, c.x * D.y - c.y * D.x⟩

end Spec
