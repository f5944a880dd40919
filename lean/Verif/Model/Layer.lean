import Verif.Model.Drivers
import Verif.Model.Noise

/-!
# Model of `core/junction.hpp`, part 1: constants, `Layer`

Simplifications, all of them stated again where they matter:
* 3x3 tensors are `std::vector<CVector>` in C++ and only entries 0, 1, 2 are read; a shorter vector is
  undefined behaviour in C++ and not representable here.
* `dWn2`, `H_log`/`Hoe_log` duplicates, `Hconst`, `HIECtop`, `HIECbottom`, `Hthermal`, `hopt` are never read by
  any modelled function and are left out. `Hfluctuation` (the member, junction.hpp:194) is never written and is
  read only by the logger.
* the shared `OneFNoise` object `ofn` is only read by `getStochasticOneFNoise`, which no solver calls; it is
  left out. `stochastic_llg` (junction.hpp:830-849) is called by nothing and left out.
* `timeStep` arguments that are never read are dropped.
-/

namespace Const
variable {T : Type} [Scalar T]
/-- junction.hpp:32. -/
def mu0 : T := 12.57e-7
/-- junction.hpp:33. -/
def gyro : T := 220880.0
/-- junction.hpp:35; the macro is not parenthesised, `HBAR * x` parses as `(h / (2π)) * x`. -/
def hbar : T := 6.62607015e-34 / (2 * Scalar.pi)
/-- junction.hpp:36. -/
def electronCharge : T := 1.60217662e-19
/-- junction.hpp:37. -/
def boltzmann : T := 1.380649e-23
end Const

/-- A 3x3 tensor given by its rows. -/
@[ext] structure Tensor (T : Type) where
  r0 : CVec T
  r1 : CVec T
  r2 : CVec T

namespace Tensor
variable {T : Type} [Scalar T]
def zero : Tensor T := ⟨.zero, .zero, .zero⟩

/-- junction.hpp:53-71, `calculate_tensor_interaction` (both overloads). -/
def interaction (m : CVec T) (t : Tensor T) (Ms : T) : CVec T :=
  let res : CVec T :=
    ⟨t.r0.x * m.x + t.r0.y * m.y + t.r0.z * m.z,
     t.r1.x * m.x + t.r1.y * m.y + t.r1.z * m.z,
     t.r2.x * m.x + t.r2.y * m.y + t.r2.z * m.z⟩
  res * (Ms / Const.mu0)
end Tensor

/-- junction.hpp:111. -/
inductive Reference | NONE | FIXED | TOP | BOTTOM
  deriving DecidableEq, Repr

/-- junction.hpp:113. -/
inductive SolverMode | EULER_HEUN | RK4 | DORMAND_PRICE | HEUN
  deriving DecidableEq, Repr

/-- junction.hpp:173-179, `BufferedNoiseParameters`. -/
structure NoiseParams (T : Type) where
  alphaNoise : T
  scaleNoise : T
  stdNoise : T
  axis : Axis

/-- The members of `Layer` that record the last evaluation of the fields (junction.hpp:194-203), for logging. -/
structure LayerLog (T : Type) where
  Hext : CVec T
  Hoe : CVec T
  Hdipole : CVec T
  Hdemag : CVec T
  HIEC : CVec T
  Hidmi : CVec T
  HAnis : CVec T
  Hdmi : CVec T
  Hfl_v : CVec T
  Hdl_v : CVec T
  Hfluctuation : CVec T
  Jbottom : T
  Jtop : T
  J2bottom : T
  J2top : T
  K : T
  I : T

/-- junction.hpp:194-203, initial values. -/
def LayerLog.init {T : Type} [Scalar T] : LayerLog T :=
  ⟨.zero, .zero, .zero, .zero, .zero, .zero, .zero, .zero, .zero, .zero, .zero, 0, 0, 0, 0, 0, 0⟩

/-- junction.hpp:115-227, class `Layer`. -/
structure Layer (T : Type) where
  id : String
  -- drivers, junction.hpp:117-134
  temperatureDriver : ScalarDriver T
  IECDriverTop : ScalarDriver T
  IECDriverBottom : ScalarDriver T
  IECQuadDriverTop : ScalarDriver T
  IECQuadDriverBottom : ScalarDriver T
  IDMIDriverTop : AxialDriver T
  IDMIDriverBottom : AxialDriver T
  HreservedDriver : AxialDriver T
  currentDriver : ScalarDriver T
  anisotropyDriver : ScalarDriver T
  fieldLikeTorqueDriver : ScalarDriver T
  dampingLikeTorqueDriver : ScalarDriver T
  externalFieldDriver : AxialDriver T
  HoeDriver : AxialDriver T
  HdmiDriver : AxialDriver T
  -- flags, junction.hpp:136-141
  nonStochasticTempSet : Bool
  temperatureSet : Bool
  pinkNoiseSet : Bool
  alternativeSTTSet : Bool
  referenceType : Reference
  -- junction.hpp:180-224
  noiseParams : NoiseParams T
  bfn : Option (VectorAlphaNoise T)
  includeSTT : Bool
  includeSOT : Bool
  Ms : T
  thickness : T
  cellVolume : T
  cellSurface : T
  mag : CVec T
  anis : CVec T
  referenceLayer : CVec T
  demagTensor : Tensor T
  dipoleBottom : Tensor T
  dipoleTop : Tensor T
  damping : T
  dynamicSOT : Bool
  fieldLikeTorque : T
  dampingLikeTorque : T
  slonczewski : T
  beta : T
  kappa : T
  spinPolarisation : T
  -- recorded fields
  cache : LayerLog T
  /-- the Gaussian generator `distribution` (junction.hpp:144-145): its future draws, and how many were used.
  `std::function` is copied by value, so a copied layer repeats the draws. -/
  gauss : Nat → T
  gpos : Nat
  /-- random buffer contents for the alpha noise: generator number, axis, refill, index. -/
  alphaSrc : Nat → Axis → Nat → Nat → T
  /-- number of `VectorAlphaNoise` objects created so far. -/
  bfnCount : Nat

namespace Layer
variable {T : Type} [Scalar T]

/-- junction.hpp:148-170, private constructor, with the member defaults of 136-141 and 172-227.
The constructor normalises its *parameter* `mag` (line 165) after the member was initialised from it
(line 152), so the member keeps the vector as given. -/
def mk' (id : String) (mag anis : CVec T) (Ms thickness cellSurface : T) (demagTensor : Tensor T)
    (damping fieldLikeTorque dampingLikeTorque slonczewski beta spinPolarisation : T)
    (gauss : Nat → T) (alphaSrc : Nat → Axis → Nat → Nat → T) : Except Err (Layer T) :=
  if Scalar.eqb mag.length 0 then .error .zeroMag
  else if Scalar.eqb anis.length 0 then .error .zeroAnis
  else .ok {
    id := id
    temperatureDriver := .null, IECDriverTop := .null, IECDriverBottom := .null
    IECQuadDriverTop := .null, IECQuadDriverBottom := .null
    IDMIDriverTop := .null, IDMIDriverBottom := .null, HreservedDriver := .null
    currentDriver := .null, anisotropyDriver := .null, fieldLikeTorqueDriver := .null
    dampingLikeTorqueDriver := .null, externalFieldDriver := .null, HoeDriver := .null
    HdmiDriver := .null
    nonStochasticTempSet := false, temperatureSet := false, pinkNoiseSet := false
    alternativeSTTSet := false, referenceType := .NONE
    noiseParams := ⟨1, 0, 0, .all⟩, bfn := none
    includeSTT := false, includeSOT := false
    Ms := Ms, thickness := thickness
    cellVolume := cellSurface * thickness, cellSurface := cellSurface
    mag := mag, anis := anis, referenceLayer := .zero
    demagTensor := demagTensor, dipoleBottom := .zero, dipoleTop := .zero
    damping := damping, dynamicSOT := true
    fieldLikeTorque := fieldLikeTorque, dampingLikeTorque := dampingLikeTorque
    slonczewski := slonczewski, beta := beta, kappa := 1, spinPolarisation := spinPolarisation
    cache := .init
    gauss := gauss, gpos := 3
    alphaSrc := alphaSrc, bfnCount := 0 }

/-- junction.hpp:229-233, plain layer. -/
def plain (id : String) (mag anis : CVec T) (Ms thickness cellSurface : T) (demagTensor : Tensor T)
    (damping : T) (gauss : Nat → T) (alphaSrc : Nat → Axis → Nat → Nat → T) : Except Err (Layer T) :=
  mk' id mag anis Ms thickness cellSurface demagTensor damping 0 0 0 0 0 gauss alphaSrc

/-- junction.hpp:257-266, layer with static spin-orbit torque (also `LayerSOT`, 312-320). -/
def sot (id : String) (mag anis : CVec T) (Ms thickness cellSurface : T) (demagTensor : Tensor T)
    (damping fieldLikeTorque dampingLikeTorque : T) (gauss : Nat → T)
    (alphaSrc : Nat → Axis → Nat → Nat → T) : Except Err (Layer T) :=
  match mk' id mag anis Ms thickness cellSurface demagTensor damping fieldLikeTorque dampingLikeTorque
      0 0 0 gauss alphaSrc with
  | .error e => .error e
  | .ok l => .ok { l with includeSTT := false, includeSOT := true, dynamicSOT := false }

/-- junction.hpp:291-299, layer with spin-transfer torque (also `LayerSTT`, 301-310). -/
def stt (id : String) (mag anis : CVec T) (Ms thickness cellSurface : T) (demagTensor : Tensor T)
    (damping slonczewski beta spinPolarisation : T) (gauss : Nat → T)
    (alphaSrc : Nat → Axis → Nat → Nat → T) : Except Err (Layer T) :=
  match mk' id mag anis Ms thickness cellSurface demagTensor damping 0 0 slonczewski beta
      spinPolarisation gauss alphaSrc with
  | .error e => .error e
  | .ok l => .ok { l with includeSTT := true, includeSOT := false }

/-! ### Setters, junction.hpp:334-491 -/

/-- Write the magnetisation member. -/
def setMag (l : Layer T) (m : CVec T) : Layer T := { l with mag := m }

/-- Advance the Gaussian generator. -/
def setGpos (l : Layer T) (n : Nat) : Layer T := { l with gpos := n }

/-- Replace the 1/f generator by its next state. -/
def setBfn (l : Layer T) (b : VectorAlphaNoise T) : Layer T := { l with bfn := some b }

/-- junction.hpp:334-336. -/
def setAlternativeSTT (l : Layer T) (b : Bool) : Layer T := { l with alternativeSTTSet := b }
/-- junction.hpp:337. -/
def setKappa (l : Layer T) (k : T) : Layer T := { l with kappa := k }
/-- junction.hpp:338-340. -/
def setTopDipoleTensor (l : Layer T) (t : Tensor T) : Layer T := { l with dipoleTop := t }
/-- junction.hpp:342-344. -/
def setBottomDipoleTensor (l : Layer T) (t : Tensor T) : Layer T := { l with dipoleBottom := t }
/-- junction.hpp:348-351. -/
def setTemperatureDriver (l : Layer T) (d : ScalarDriver T) : Layer T :=
  { l with temperatureDriver := d, temperatureSet := true }
/-- junction.hpp:353-358. -/
def setNonStochasticLangevinDriver (l : Layer T) (d : ScalarDriver T) : Layer T :=
  { l with temperatureDriver := d, temperatureSet := false, nonStochasticTempSet := true }
/-- junction.hpp:360-367; the new `OneFNoise` object is not modelled (see the header). -/
def setOneFNoise (l : Layer T) : Layer T := { l with pinkNoiseSet := true }

/-- junction.hpp:369-377. -/
def setAlphaNoise (l : Layer T) (alpha std scale : T) (axis : Axis) : Out (Layer T) Unit :=
  if Scalar.ltb alpha 0 || Scalar.ltb 2 alpha then .fail .alphaRange l
  else .ok () { l with noiseParams := ⟨alpha, scale, std, axis⟩, pinkNoiseSet := true }

/-- junction.hpp:379-388. Creates the generator; the random contents come from `alphaSrc`. -/
def createBufferedAlphaNoise (l : Layer T) (bufferSize : Nat) : Out (Layer T) Unit :=
  if Scalar.ltb l.noiseParams.alphaNoise 0 then .fail .alphaUnset l
  else
    match VectorAlphaNoise.mk' bufferSize l.noiseParams.scaleNoise l.noiseParams.axis
        (l.alphaSrc l.bfnCount .xaxis) (l.alphaSrc l.bfnCount .yaxis) (l.alphaSrc l.bfnCount .zaxis) with
    | .error e => .fail e l
    | .ok b => .ok () { l with bfn := some b, bfnCount := l.bfnCount + 1 }

/-- junction.hpp:390-392. -/
def setCurrentDriver (l : Layer T) (d : ScalarDriver T) : Layer T := { l with currentDriver := d }

/-- junction.hpp:394-403. `includeSOT` is set before the checks. -/
def setFieldLikeTorqueDriver (l : Layer T) (d : ScalarDriver T) : Out (Layer T) Unit :=
  let l := { l with includeSOT := true }
  if l.includeSTT then .fail .sttSotMix l
  else if !l.dynamicSOT then .fail .sttSotMix l
  else .ok () { l with fieldLikeTorqueDriver := d }

/-- junction.hpp:405-414. -/
def setDampingLikeTorqueDriver (l : Layer T) (d : ScalarDriver T) : Out (Layer T) Unit :=
  let l := { l with includeSOT := true }
  if l.includeSTT then .fail .sttSotMix l
  else if !l.dynamicSOT then .fail .sttSotMix l
  else .ok () { l with dampingLikeTorqueDriver := d }

/-- junction.hpp:416-418. -/
def setAnisotropyDriver (l : Layer T) (d : ScalarDriver T) : Layer T := { l with anisotropyDriver := d }
/-- junction.hpp:420-422. -/
def setExternalFieldDriver (l : Layer T) (d : AxialDriver T) : Layer T := { l with externalFieldDriver := d }
/-- junction.hpp:423-425. -/
def setOerstedFieldDriver (l : Layer T) (d : AxialDriver T) : Layer T := { l with HoeDriver := d }

/-- junction.hpp:427-434. -/
def setMagnetisation (l : Layer T) (mag : CVec T) : Out (Layer T) Unit :=
  if Scalar.eqb mag.length 0 then .fail .zeroMag l
  else .ok () (l.setMag mag.normalize)

/-- junction.hpp:436-438. -/
def setIECDriverBottom (l : Layer T) (d : ScalarDriver T) : Layer T := { l with IECDriverBottom := d }
/-- junction.hpp:440-442. -/
def setIECDriverTop (l : Layer T) (d : ScalarDriver T) : Layer T := { l with IECDriverTop := d }
/-- junction.hpp:444-446. -/
def setQuadIECDriverTop (l : Layer T) (d : ScalarDriver T) : Layer T := { l with IECQuadDriverTop := d }
/-- junction.hpp:448-450. -/
def setQuadIECDriverBottom (l : Layer T) (d : ScalarDriver T) : Layer T := { l with IECQuadDriverBottom := d }
/-- junction.hpp:452-454. -/
def setIDMIDriverTop (l : Layer T) (d : AxialDriver T) : Layer T := { l with IDMIDriverTop := d }
/-- junction.hpp:456-458. -/
def setIDMIDriverBottom (l : Layer T) (d : AxialDriver T) : Layer T := { l with IDMIDriverBottom := d }
/-- junction.hpp:460-462. -/
def setHdmiDriver (l : Layer T) (d : AxialDriver T) : Layer T := { l with HdmiDriver := d }
/-- junction.hpp:464-466. -/
def setReservedInteractionField (l : Layer T) (d : AxialDriver T) : Layer T := { l with HreservedDriver := d }

/-- junction.hpp:474-477. -/
def setReferenceLayer (l : Layer T) (reference : CVec T) : Layer T :=
  { l with referenceLayer := reference, referenceType := .FIXED }

/-- junction.hpp:485-491. `!length()` is true exactly when the length compares equal to 0. -/
def setReferenceType (l : Layer T) (reference : Reference) : Out (Layer T) Unit :=
  if reference = .FIXED ∧ Scalar.eqb l.referenceLayer.length 0 = true then .fail .zeroReference l
  else .ok () { l with referenceType := reference }

/-! ### Fields, junction.hpp:506-613 -/

/-- junction.hpp:563-568: the value of the anisotropy field for the constant `K`. -/
def anisotropyField (l : Layer T) (K : T) (m : CVec T) : CVec T :=
  let nom := (2 * K) * l.anis.dot m / l.Ms
  l.anis * nom

/-- junction.hpp:570-578, `calculateIEC_`; throws if `Ms * thickness` is zero. -/
def iec (l : Layer T) (J J2 : T) (m coupled : CVec T) : Except Err (CVec T) :=
  (coupled * (J + 2 * J2 * coupled.dot m)).div (l.Ms * l.thickness)

/-- junction.hpp:593-605, `calculateIDMI_`. -/
def idmi (l : Layer T) (D coupled : CVec T) : Except Err (CVec T) :=
  let v : CVec T :=
    ⟨D.dot ⟨0, -coupled.z, coupled.y⟩, D.dot ⟨coupled.z, 0, -coupled.x⟩,
     D.dot ⟨-coupled.y, coupled.x, 0⟩⟩
  v.div (l.Ms * l.thickness)

/-- Write the record of the last evaluation. -/
def setCache (l : Layer T) (c : LayerLog T) : Layer T := { l with cache := c }

/-- junction.hpp:580-591, `calculateIEC`: records the couplings, then adds the two contributions. -/
def calculateIEC (l : Layer T) (time : T) (m bottom top : CVec T) : Out (Layer T) (CVec T) :=
  let Jb := l.IECDriverBottom.value time
  let Jt := l.IECDriverTop.value time
  let J2b := l.IECQuadDriverBottom.value time
  let J2t := l.IECQuadDriverTop.value time
  let l' := l.setCache { l.cache with Jbottom := Jb, Jtop := Jt, J2bottom := J2b, J2top := J2t }
  match l.iec Jb J2b m bottom, l.iec Jt J2t m top with
  | .ok a, .ok b => .ok (a + b) l'
  | .error e, _ => .fail e l'
  | .ok _, .error e => .fail e l'

/-- junction.hpp:607-613, `calculateIDMI`. -/
def calculateIDMI (l : Layer T) (time : T) (bottom top : CVec T) : Except Err (CVec T) :=
  match l.idmi (l.IDMIDriverBottom.value time) bottom, l.idmi (l.IDMIDriverTop.value time) top with
  | .ok a, .ok b => .ok (a + b)
  | .error e, _ => .error e
  | .ok _, .error e => .error e

/-- junction.hpp:517-547, `calculateHeffDipoleInjection`. -/
def calculateHeffDipoleInjection (l : Layer T) (time : T) (m bottom top dipole Hfluctuation : CVec T) :
    Out (Layer T) (CVec T) :=
  let Hext := l.externalFieldDriver.value time
  let Hoe := l.HoeDriver.value time
  let Hdemag := Tensor.interaction m l.demagTensor l.Ms
  let l := l.setCache { l.cache with Hext := Hext, Hoe := Hoe, Hdemag := Hdemag }
  (l.calculateIEC time m bottom top).bind fun HIEC l =>
  let l := l.setCache { l.cache with HIEC := HIEC }
  match l.calculateIDMI time bottom top with
  | .error e => .fail e l
  | .ok Hidmi =>
    let K := l.anisotropyDriver.value time
    let HAnis := l.anisotropyField K m
    let Hdmi := l.HdmiDriver.value time
    let reserved := l.HreservedDriver.value time
    .ok (Hext + HAnis + HIEC + Hidmi + Hoe + Hdmi + Hfluctuation - Hdemag - dipole + reserved)
      (l.setCache { l.cache with Hidmi := Hidmi, K := K, HAnis := HAnis, Hdmi := Hdmi })

/-- junction.hpp:506-515, `calculateHeff`. -/
def calculateHeff (l : Layer T) (time : T) (m bottom top Hfluctuation : CVec T) : Out (Layer T) (CVec T) :=
  let Hdipole := Tensor.interaction bottom l.dipoleBottom l.Ms + Tensor.interaction top l.dipoleTop l.Ms
  (l.setCache { l.cache with Hdipole := Hdipole }).calculateHeffDipoleInjection time m bottom top Hdipole
    Hfluctuation

/-! ### The LLG right-hand side, junction.hpp:628-704 -/

/-- junction.hpp:635-652: which vector polarises the current. -/
def reference (l : Layer T) (bottom top : CVec T) : CVec T :=
  match l.referenceType with
  | .FIXED => l.referenceLayer
  | .TOP => top
  | .BOTTOM => bottom
  | .NONE => .zero

/-- junction.hpp:663-674: spin-transfer efficiency. -/
def sttEta (l : Layer T) (m ref : CVec T) : T :=
  if l.alternativeSTTSet then
    l.spinPolarisation / (1 + l.slonczewski * m.dot ref)
  else
    let slonSq := Scalar.powi l.slonczewski 2
    (l.spinPolarisation * slonSq) / (slonSq + 1 + (slonSq - 1) * m.dot ref)

/-- junction.hpp:628-704, `solveLLG`. Returns dm/dt; records the current and the SOT fields. -/
def solveLLG (l : Layer T) (time : T) (m bottom top heff : CVec T) : CVec T × Layer T :=
  let prod := m.cross heff
  let prod2 := m.cross prod
  let convTerm : T := 1 / (1 + Scalar.powi l.damping 2)
  let dmdt := prod + prod2 * l.damping
  let ref := l.reference bottom top
  if l.includeSTT then
    let I := l.currentDriver.value time
    let aJ := Const.hbar * I / (Const.electronCharge * l.Ms * l.thickness)
    let eta := l.sttEta m ref
    let sttTerm := Const.gyro * aJ * eta
    let fieldLike := m.cross ref
    let dampingLike := m.cross fieldLike
    ((dmdt * (-Const.gyro : T) + dampingLike * (-sttTerm) * l.kappa + fieldLike * sttTerm * l.beta)
      * convTerm, l.setCache { l.cache with I := I })
  else if l.includeSOT then
    let I := if l.dynamicSOT then l.cache.I else l.currentDriver.value time
    let Hdl := if l.dynamicSOT then l.dampingLikeTorqueDriver.value time
      else l.dampingLikeTorque * l.currentDriver.value time
    let Hfl := if l.dynamicSOT then l.fieldLikeTorqueDriver.value time
      else l.fieldLikeTorque * l.currentDriver.value time
    let cm := m.cross ref
    let ccm := m.cross cm
    let flTorque := cm * (Hfl - l.damping * Hdl)
    let dlTorque := ccm * (Hdl + l.damping * Hfl)
    ((dmdt + flTorque + dlTorque) * (-Const.gyro : T) * convTerm,
      l.setCache { l.cache with I := I, Hfl_v := ref * (Hfl - l.damping * Hdl),
                                Hdl_v := ref * (Hdl + l.damping * Hfl) })
  else
    (dmdt * (-Const.gyro : T) * convTerm, l)

/-- junction.hpp:713-720, `stochasticTorque`. -/
def stochasticTorque (l : Layer T) (m dW : CVec T) : CVec T :=
  let convTerm : T := (-Const.gyro) / (1 + Scalar.powi l.damping 2)
  let thcross := m.cross dW
  let thcross2 := m.cross thcross
  (thcross + thcross2 * l.damping) * convTerm

/-- junction.hpp:722-730, `calculateLLGWithFieldTorqueDipoleInjection`. -/
def llgDipoleInjection (l : Layer T) (time : T) (m bottom top dipole : CVec T) : Out (Layer T) (CVec T) :=
  (l.calculateHeffDipoleInjection time m bottom top dipole .zero).bind fun heff l =>
    let r := l.solveLLG time m bottom top heff
    .ok r.1 r.2

/-- junction.hpp:744-753, `calculateLLGWithFieldTorque` (every caller leaves `Hfluctuation` at its default). -/
def llg (l : Layer T) (time : T) (m bottom top : CVec T) : Out (Layer T) (CVec T) :=
  (l.calculateHeff time m bottom top .zero).bind fun heff l =>
    let r := l.solveLLG time m bottom top heff
    .ok r.1 r.2

/-- junction.hpp:785, 825: the Runge–Kutta combination. `(...) / 6.0` is the checked division; 6.0 is not
zero, so it is written as plain division here. -/
def rk4Combine (m k1 k2 k3 k4 : CVec T) : CVec T :=
  let s := k1 + k2 * (2.0 : T) + k3 * (2.0 : T) + k4
  m + ⟨s.x / 6.0, s.y / 6.0, s.z / 6.0⟩

/-- junction.hpp:768-791, `rk4_step`. -/
def rk4Step (l : Layer T) (time dt : T) (bottom top : CVec T) : Out (Layer T) Unit :=
  let m := l.mag
  (l.llg time m bottom top).bind fun f1 l =>
  let k1 := f1 * dt
  (l.llg (time + 0.5 * dt) (m + k1 * (0.5 : T)) bottom top).bind fun f2 l =>
  let k2 := f2 * dt
  (l.llg (time + 0.5 * dt) (m + k2 * (0.5 : T)) bottom top).bind fun f3 l =>
  let k3 := f3 * dt
  (l.llg (time + dt) (m + k3) bottom top).bind fun f4 l =>
  let k4 := f4 * dt
  let l := l.setMag (rk4Combine m k1 k2 k3 k4).normalize
  if Scalar.isNan l.mag.x then .fail .nan l else .ok () l

/-- junction.hpp:806-828, `rk4_stepDipoleInjection`: the same without the NaN check. -/
def rk4StepDipoleInjection (l : Layer T) (time dt : T) (bottom top dipole : CVec T) : Out (Layer T) Unit :=
  let m := l.mag
  (l.llgDipoleInjection time m bottom top dipole).bind fun f1 l =>
  let k1 := f1 * dt
  (l.llgDipoleInjection (time + 0.5 * dt) (m + k1 * (0.5 : T)) bottom top dipole).bind fun f2 l =>
  let k2 := f2 * dt
  (l.llgDipoleInjection (time + 0.5 * dt) (m + k2 * (0.5 : T)) bottom top dipole).bind fun f3 l =>
  let k3 := f3 * dt
  (l.llgDipoleInjection (time + dt) (m + k3) bottom top dipole).bind fun f4 l =>
  let k4 := f4 * dt
  .ok () (l.setMag (rk4Combine m k1 k2 k3 k4).normalize)

/-! ### Noise, junction.hpp:861-886 -/

/-- junction.hpp:861-869, `getLangevinStochasticStandardDeviation`. -/
def langevinStd (l : Layer T) (time : T) : Except Err T :=
  if Scalar.eqb l.cellVolume 0.0 then .error .zeroSurface
  else
    let temp := l.temperatureDriver.value time
    let mainFactor := (2 * l.damping * Const.boltzmann * temp) / (l.Ms * l.cellVolume * Const.gyro)
    .ok (Scalar.sqrt mainFactor)

/-- junction.hpp:871-878, `getStochasticLangevinVector`: no draw without a temperature driver. -/
def langevinVector (l : Layer T) (time : T) : Out (Layer T) (CVec T) :=
  if !l.temperatureSet then .ok .zero l
  else
    match l.langevinStd time with
    | .error e => .fail e l
    | .ok sd =>
      let d := CVec.ofStream l.gauss l.gpos
      .ok (d.1 * sd) (l.setGpos d.2)

/-- junction.hpp:880-886, `getOneFVector`. Using the generator before it exists dereferences a null
pointer. -/
def oneFVector (l : Layer T) : Out (Layer T) (CVec T) :=
  if Scalar.eqb l.noiseParams.scaleNoise 0 then .ok .zero l
  else
    match l.bfn with
    | none => .fail .ub l
    | some b => .ok b.tickVector.1 (l.setBfn b.tickVector.2)

end Layer
