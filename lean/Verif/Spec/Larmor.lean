import Verif.Spec.Motion
import Mathlib.Analysis.SpecialFunctions.Trigonometric.DerivHyp
import Mathlib.MeasureTheory.Integral.IntervalIntegral.FundThmCalculus

/-!
The textbook macrospin without anisotropy: a field and torques along one axis, of any strength in time. The magnetisation turns about the
axis and approaches it; both in closed form.
-/

set_option linter.unusedSectionVars false

namespace Spec
open Layer

/-- The only field of the layer points along the axis `e`; its strength at time `t` is `h t`. Spin torques have the axis as their
reference, and an efficiency that does not depend on the magnetisation. -/
structure OneAxis (l : Layer ℝ) (e : CVec ℝ) (h : ℝ → ℝ) : Prop where
  unit : e.length = 1
  external : ∀ t, l.externalFieldDriver.value t + l.HoeDriver.value t + l.HdmiDriver.value t + l.HreservedDriver.value t = smul (h t) e
  anisotropy : ∀ t, l.anisotropyDriver.value t = 0
  demag : l.demagTensor = ⟨⟨0, 0, 0⟩, ⟨0, 0, 0⟩, ⟨0, 0, 0⟩⟩
  fixed : l.referenceType = .FIXED
  reference : l.referenceLayer = e
  efficiency : l.includeSTT = true → if l.alternativeSTTSet = true then l.slonczewski = 0 else l.slonczewski = 1

/-- Strength of the spin-transfer torque in A/m: the amplitude times the polarisation, halved in the Slonczewski form. -/
noncomputable def transfer (l : Layer ℝ) (t : ℝ) : ℝ :=
  sttAmplitude l t * (if l.alternativeSTTSet = true then l.spinPolarisation else l.spinPolarisation / 2)

/-- How fast the layer turns about the axis, in A/m. -/
noncomputable def turnRate (l : Layer ℝ) (h : ℝ → ℝ) (t : ℝ) : ℝ :=
  h t + if l.includeSTT = true then -(transfer l t * l.beta)
    else if l.includeSOT = true then (sotFields l t).1 - l.damping * (sotFields l t).2 else 0

/-- How fast the layer approaches the axis, in A/m. -/
noncomputable def tiltRate (l : Layer ℝ) (h : ℝ → ℝ) (t : ℝ) : ℝ :=
  l.damping * h t + if l.includeSTT = true then transfer l t * l.kappa
    else if l.includeSOT = true then (sotFields l t).2 + l.damping * (sotFields l t).1 else 0

/-- The magnetisation `m` after it has turned by the angle `w` about the axis `e` while approaching it by `q`: the component `c` along
the axis becomes `tanh (artanh c + q)`. -/
noncomputable def spiral (e m : CVec ℝ) (q w : ℝ) : CVec ℝ :=
  smul (1 / (Real.cosh q + m.dot e * Real.sinh q))
    (smul (Real.sinh q + m.dot e * (Real.cosh q - Real.cos w)) e + smul (Real.cos w) m + smul (Real.sin w) (e.cross m))

/-- The textbook curve of the layer: the angles are the integrals of the rates. -/
noncomputable def textbook (l : Layer ℝ) (e : CVec ℝ) (h : ℝ → ℝ) (t : ℝ) : CVec ℝ :=
  spiral e l.mag (∫ s in (0 : ℝ)..t, 220880 / (1 + l.damping ^ 2) * tiltRate l h s)
    (∫ s in (0 : ℝ)..t, 220880 / (1 + l.damping ^ 2) * turnRate l h s)

end Spec
