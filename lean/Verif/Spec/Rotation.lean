import Verif.Model.Junction

/-! Rotations of space and what it means to rotate a layer. -/

namespace Spec

/-- A 3x3 matrix by rows, acting on vectors. -/
structure Mat where
  r0 : CVec ℝ
  r1 : CVec ℝ
  r2 : CVec ℝ

def dot3 (a b : CVec ℝ) : ℝ := a.x * b.x + a.y * b.y + a.z * b.z

def Mat.apply (M : Mat) (v : CVec ℝ) : CVec ℝ := ⟨dot3 M.r0 v, dot3 M.r1 v, dot3 M.r2 v⟩

/-- Rows and columns orthonormal, determinant one. -/
structure Mat.IsRotation (M : Mat) : Prop where
  r00 : dot3 M.r0 M.r0 = 1
  r11 : dot3 M.r1 M.r1 = 1
  r22 : dot3 M.r2 M.r2 = 1
  r01 : dot3 M.r0 M.r1 = 0
  r02 : dot3 M.r0 M.r2 = 0
  r12 : dot3 M.r1 M.r2 = 0
  cxx : M.r0.x * M.r0.x + M.r1.x * M.r1.x + M.r2.x * M.r2.x = 1
  cyy : M.r0.y * M.r0.y + M.r1.y * M.r1.y + M.r2.y * M.r2.y = 1
  czz : M.r0.z * M.r0.z + M.r1.z * M.r1.z + M.r2.z * M.r2.z = 1
  cxy : M.r0.x * M.r0.y + M.r1.x * M.r1.y + M.r2.x * M.r2.y = 0
  cxz : M.r0.x * M.r0.z + M.r1.x * M.r1.z + M.r2.x * M.r2.z = 0
  cyz : M.r0.y * M.r0.z + M.r1.y * M.r1.z + M.r2.y * M.r2.z = 0
  det : M.r0.x * (M.r1.y * M.r2.z - M.r1.z * M.r2.y) + M.r0.y * (M.r1.z * M.r2.x - M.r1.x * M.r2.z)
    + M.r0.z * (M.r1.x * M.r2.y - M.r1.y * M.r2.x) = 1

/-- tensor applied to a vector -/
def tApply (N : Tensor ℝ) (v : CVec ℝ) : CVec ℝ := ⟨dot3 N.r0 v, dot3 N.r1 v, dot3 N.r2 v⟩

/-- `M N Mᵀ` -/
def Mat.conj (M : Mat) (N : Tensor ℝ) : Tensor ℝ :=
  ⟨⟨dot3 M.r0 (tApply N M.r0), dot3 M.r0 (tApply N M.r1), dot3 M.r0 (tApply N M.r2)⟩,
   ⟨dot3 M.r1 (tApply N M.r0), dot3 M.r1 (tApply N M.r1), dot3 M.r1 (tApply N M.r2)⟩,
   ⟨dot3 M.r2 (tApply N M.r0), dot3 M.r2 (tApply N M.r1), dot3 M.r2 (tApply N M.r2)⟩⟩

/-- `l'` is the layer `l` described in axes rotated by `M`: vectors rotated, tensors conjugated, vector drivers
rotated at every time, scalars and scalar drivers equal. Thermal noise, if on, has rotated draws; 1/f noise
is off. The recorded fields of the last evaluation are not constrained. -/
structure RotatedLayer (M : Mat) (l l' : Layer ℝ) : Prop where
  mag : l'.mag = M.apply l.mag
  anis : l'.anis = M.apply l.anis
  ref : l'.referenceLayer = M.apply l.referenceLayer
  demag : l'.demagTensor = M.conj l.demagTensor
  dipB : l'.dipoleBottom = M.conj l.dipoleBottom
  dipT : l'.dipoleTop = M.conj l.dipoleTop
  ext : ∀ t, l'.externalFieldDriver.value t = M.apply (l.externalFieldDriver.value t)
  oe : ∀ t, l'.HoeDriver.value t = M.apply (l.HoeDriver.value t)
  dmi : ∀ t, l'.HdmiDriver.value t = M.apply (l.HdmiDriver.value t)
  res : ∀ t, l'.HreservedDriver.value t = M.apply (l.HreservedDriver.value t)
  idmiB : ∀ t, l'.IDMIDriverBottom.value t = M.apply (l.IDMIDriverBottom.value t)
  idmiT : ∀ t, l'.IDMIDriverTop.value t = M.apply (l.IDMIDriverTop.value t)
  iecB : ∀ t, l'.IECDriverBottom.value t = l.IECDriverBottom.value t
  iecT : ∀ t, l'.IECDriverTop.value t = l.IECDriverTop.value t
  quadB : ∀ t, l'.IECQuadDriverBottom.value t = l.IECQuadDriverBottom.value t
  quadT : ∀ t, l'.IECQuadDriverTop.value t = l.IECQuadDriverTop.value t
  cur : ∀ t, l'.currentDriver.value t = l.currentDriver.value t
  ani : ∀ t, l'.anisotropyDriver.value t = l.anisotropyDriver.value t
  fl : ∀ t, l'.fieldLikeTorqueDriver.value t = l.fieldLikeTorqueDriver.value t
  dl : ∀ t, l'.dampingLikeTorqueDriver.value t = l.dampingLikeTorqueDriver.value t
  temp : ∀ t, l'.temperatureDriver.value t = l.temperatureDriver.value t
  Ms : l'.Ms = l.Ms
  thickness : l'.thickness = l.thickness
  volume : l'.cellVolume = l.cellVolume
  damping : l'.damping = l.damping
  stt : l'.includeSTT = l.includeSTT
  sot : l'.includeSOT = l.includeSOT
  alt : l'.alternativeSTTSet = l.alternativeSTTSet
  refType : l'.referenceType = l.referenceType
  dyn : l'.dynamicSOT = l.dynamicSOT
  flt : l'.fieldLikeTorque = l.fieldLikeTorque
  dlt : l'.dampingLikeTorque = l.dampingLikeTorque
  slon : l'.slonczewski = l.slonczewski
  beta : l'.beta = l.beta
  kappa : l'.kappa = l.kappa
  pol : l'.spinPolarisation = l.spinPolarisation
  tempSet : l'.temperatureSet = l.temperatureSet
  scale : l.noiseParams.scaleNoise = 0
  scale' : l'.noiseParams.scaleNoise = 0
  gpos : l'.gpos = l.gpos
  draws : ∀ k : ℕ, (⟨l'.gauss (l.gpos + 3 * k), l'.gauss (l.gpos + 3 * k + 1), l'.gauss (l.gpos + 3 * k + 2)⟩ : CVec ℝ)
    = M.apply ⟨l.gauss (l.gpos + 3 * k), l.gauss (l.gpos + 3 * k + 1), l.gauss (l.gpos + 3 * k + 2)⟩

end Spec
