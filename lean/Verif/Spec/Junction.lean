import Verif.Spec.Fields
import Verif.Model.Junction

/-! Specification vocabulary for multilayer dynamics, independent of the model's helper functions. -/

namespace Spec
variable {T : Type} [Scalar T]

/-- magnetisation of the layer directly below layer `i`; zero if there is none -/
def magBelow (ls : List (Layer T)) : Nat → CVec T
  | 0 => ⟨0, 0, 0⟩
  | i + 1 => match ls[i]? with
    | some l => l.mag
    | none => ⟨0, 0, 0⟩

/-- magnetisation of the layer directly above layer `i`; zero if there is none -/
def magAbove (ls : List (Layer T)) (i : Nat) : CVec T :=
  match ls[i + 1]? with
  | some l => l.mag
  | none => ⟨0, 0, 0⟩

/-- A layer with thermal noise or a 1/f noise of non-zero scale. -/
def Noisy (l : Layer T) : Prop := l.temperatureSet = true ∨ Scalar.eqb l.noiseParams.scaleNoise 0 = false

/-- A layer on which no other layer has any influence. -/
structure Uncoupled (l : Layer ℝ) : Prop where
  iecTop : ∀ t, l.IECDriverTop.value t = 0
  iecBottom : ∀ t, l.IECDriverBottom.value t = 0
  quadTop : ∀ t, l.IECQuadDriverTop.value t = 0
  quadBottom : ∀ t, l.IECQuadDriverBottom.value t = 0
  idmiTop : ∀ t, l.IDMIDriverTop.value t = ⟨0, 0, 0⟩
  idmiBottom : ∀ t, l.IDMIDriverBottom.value t = ⟨0, 0, 0⟩
  dipoleTop : l.dipoleTop = ⟨⟨0, 0, 0⟩, ⟨0, 0, 0⟩, ⟨0, 0, 0⟩⟩
  dipoleBottom : l.dipoleBottom = ⟨⟨0, 0, 0⟩, ⟨0, 0, 0⟩, ⟨0, 0, 0⟩⟩
  reference : l.referenceType = .NONE ∨ l.referenceType = .FIXED ∨ (l.includeSTT = false ∧ l.includeSOT = false)

/-- A layer whose drivers do not change in time. -/
structure TimeIndependent (l : Layer T) : Prop where
  temperature : ∀ s t, l.temperatureDriver.value s = l.temperatureDriver.value t
  iecTop : ∀ s t, l.IECDriverTop.value s = l.IECDriverTop.value t
  iecBottom : ∀ s t, l.IECDriverBottom.value s = l.IECDriverBottom.value t
  quadTop : ∀ s t, l.IECQuadDriverTop.value s = l.IECQuadDriverTop.value t
  quadBottom : ∀ s t, l.IECQuadDriverBottom.value s = l.IECQuadDriverBottom.value t
  idmiTop : ∀ s t, l.IDMIDriverTop.value s = l.IDMIDriverTop.value t
  idmiBottom : ∀ s t, l.IDMIDriverBottom.value s = l.IDMIDriverBottom.value t
  reserved : ∀ s t, l.HreservedDriver.value s = l.HreservedDriver.value t
  current : ∀ s t, l.currentDriver.value s = l.currentDriver.value t
  anisotropy : ∀ s t, l.anisotropyDriver.value s = l.anisotropyDriver.value t
  fieldLike : ∀ s t, l.fieldLikeTorqueDriver.value s = l.fieldLikeTorqueDriver.value t
  dampingLike : ∀ s t, l.dampingLikeTorqueDriver.value s = l.dampingLikeTorqueDriver.value t
  external : ∀ s t, l.externalFieldDriver.value s = l.externalFieldDriver.value t
  oersted : ∀ s t, l.HoeDriver.value s = l.HoeDriver.value t
  dmi : ∀ s t, l.HdmiDriver.value s = l.HdmiDriver.value t

/-- `n` solver steps of size `dt` at the times `i·dt, (i+1)·dt, …`, nothing else. -/
def steps (r : Junction.Runner) (dt : T) (i : Nat) : Nat → Junction T → Out (Junction T) Unit
  | 0, j => .ok () j
  | n + 1, j => (j.runStep r (Scalar.lit (i : ℚ) * dt) dt).bind fun _ j => steps r dt (i + 1) n j

end Spec
