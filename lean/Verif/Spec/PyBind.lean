import Verif.Model.PyBind

/-!
# What the type stubs (`cmtj/*.pyi`) document

The signatures as written in the stubs; defaults given only in the text below a signature are filled in. `Means` is Python's rule for calls.
-/

namespace Stub
open Bind

/-- A documented parameter; `opt` if it may be left out, `dflt` if the default is documented. -/
structure Param where
  name : String
  opt : Bool
  dflt : Option Lit

def must (n : String) : Param := ⟨n, false, none⟩
def may (n : String) : Param := ⟨n, true, none⟩
def mayBe (n : String) (d : Lit) : Param := ⟨n, true, some d⟩

/-- cmtj/__init__.pyi, cmtj/stack/__init__.pyi, cmtj/reservoir/__init__.pyi, cmtj/noise/__init__.pyi, cmtj/llgb/__init__.pyi. -/
def table : List (String × List (List Param)) := [
  ("c_dot", [[must "arg0", must "arg1"]]),
  ("constantDriver", [[must "constant"]]),
  ("sineDriver", [[must "constantValue", must "amplitude", must "frequency", must "phase"]]),
  ("gaussianImpulseDriver", [[must "constantValue", must "amplitude", must "t0", must "sigma"]]),
  ("gaussianStepDriver", [[must "constantValue", must "amplitude", must "t0", must "sigma"]]),
  ("posSineDriver", [[must "constantValue", must "amplitude", must "frequency", must "phase"]]),
  ("pulseDriver", [[must "constantValue", must "amplitude", must "period", must "cycle"]]),
  ("stepDriver", [[must "constantValue", must "amplitude", must "timeStart", must "timeStop"]]),
  ("trapezoidDriver", [[must "constantValue", must "amplitude", must "timeStart", must "edgeTime", must "steadyTime"]]),
  ("AxialDriver.__init__", [[must "x", must "y", must "z"], [must "axialDrivers"], [must "x", must "y", must "z"], [must "xyz"]]),
  ("AxialDriver.applyMask", [[must "mask"], [must "mask"]]),
  ("AxialDriver.getCurrentAxialDrivers", [[must "arg0"]]),
  ("AxialDriver.getVectorAxialDriver", [[must "arg0", must "arg1"]]),
  ("CVector.__init__", [[must "x", must "y", must "z"]]),
  ("CVector.length", [[]]),
  ("CVector.normalize", [[]]),
  ("CVector.tolist", [[]]),
  ("CVector.__add__", [[must "arg0"]]),
  ("CVector.__eq__", [[must "arg0"]]),
  ("CVector.__getitem__", [[must "arg0"]]),
  ("CVector.__iter__", [[]]),
  ("CVector.__iadd__", [[must "arg0"]]),
  ("CVector.__imul__", [[must "arg0"]]),
  ("CVector.__isub__", [[must "arg0"]]),
  ("CVector.__len__", [[]]),
  ("CVector.__mul__", [[must "arg0"]]),
  ("CVector.__ne__", [[must "arg0"]]),
  ("CVector.__rmul__", [[must "arg0"]]),
  ("CVector.__sub__", [[must "arg0"]]),
  ("Junction.__init__", [[must "layers"], [must "layers", may "Rp", may "Rap"], [must "layers", must "Rx0", must "Ry0", must "AMR_X", must "AMR_Y", must "SMR_X", must "SMR_Y", must "AHE"]]),
  ("Junction.clearLog", [[]]),
  ("Junction.getLayerMagnetisation", [[must "layerId"]]),
  ("Junction.getLog", [[]]),
  ("Junction.getMagnetoresistance", [[]]),
  ("Junction.runSimulation", [[must "totalTime", mayBe "timeStep" (.num 1 (-13)), mayBe "writeFrequency" (.num 1 (-11)), mayBe "persist" (.flag true), mayBe "log" (.flag false), mayBe "calculateEnergies" (.flag false)]]),
  ("Junction.setIECDriver", [[must "bottomLayer", must "topLayer", must "driver"]]),
  ("Junction.setQuadIECDriver", [[must "bottomLayer", must "topLayer", must "driver"]]),
  ("Junction.setLayerTemperatureDriver", [[must "layerId", must "driver"]]),
  ("Junction.setLayerAnisotropyDriver", [[must "layerId", must "driver"]]),
  ("Junction.setLayerCurrentDriver", [[must "layerId", must "driver"]]),
  ("Junction.setLayerExternalFieldDriver", [[must "layerId", must "driver"]]),
  ("Junction.setLayerMagnetisation", [[must "layerId", must "mag"]]),
  ("Junction.setLayerOerstedFieldDriver", [[must "layerId", must "driver"]]),
  ("Junction.setLayerDampingLikeTorqueDriver", [[must "layerId", must "driver"]]),
  ("Junction.setLayerFieldLikeTorqueDriver", [[must "layerId", must "driver"]]),
  ("Junction.setLayerOneFNoise", [[must "layerId", must "sources", must "bias", must "scale"]]),
  ("Junction.getLayer", [[must "layerId"]]),
  ("Layer.__init__", [[must "id", must "mag", must "anis", must "Ms", must "thickness", must "cellSurface", must "demagTensor", may "temperature", mayBe "damping" (.num 11 (-3))]]),
  ("Layer.createSOTLayer", [[must "id", must "mag", must "anis", must "Ms", must "thickness", must "cellSurface", must "demagTensor", mayBe "damping" (.num 11 (-2)), mayBe "fieldLikeTorque" (.num 0 0), mayBe "dampingLikeTorque" (.num 0 0)]]),
  ("Layer.createSTTLayer", [[must "id", must "mag", must "anis", must "Ms", must "thickness", must "cellSurface", must "demagTensor", mayBe "damping" (.num 11 (-3)), mayBe "SlonczewskiSpacerLayerParameter" (.num 1 0), mayBe "beta" (.num 0 0), mayBe "spinPolarisation" (.num 0 0)]]),
  ("Layer.setAnisotropyDriver", [[must "driver"]]),
  ("Layer.setTemperatureDriver", [[must "driver"]]),
  ("Layer.setExternalFieldDriver", [[must "driver"]]),
  ("Layer.setMagnetisation", [[must "mag"]]),
  ("Layer.setOerstedFieldDriver", [[must "driver"]]),
  ("Layer.setDampingLikeTorqueDriver", [[must "driver"]]),
  ("Layer.setFieldLikeTorqueDriver", [[must "driver"]]),
  ("Layer.setReferenceLayer", [[must "ref"], [must "ref"]]),
  ("Layer.setTopDipoleTensor", [[must "tensor"]]),
  ("Layer.setBottomDipoleTensor", [[must "tensor"]]),
  ("Layer.getId", [[]]),
  ("Layer.setAlternativeSTT", [[must "setAlternative"]]),
  ("Layer.setKappa", [[must "kappa"]]),
  ("NullDriver.__init__", [[]]),
  ("ScalarDriver.getCurrentScalarValue", [[must "time"]]),
  ("ScalarDriver.getConstantDriver", [[must "constantValue"]]),
  ("ScalarDriver.getPulseDriver", [[must "constantValue", must "amplitude", must "period", must "cycle"]]),
  ("ScalarDriver.getSineDriver", [[must "constantValue", must "amplitude", must "frequency", must "phase"]]),
  ("ScalarDriver.getStepDriver", [[must "constantValue", must "amplitude", must "timeStart", must "timeStop"]]),
  ("ScalarDriver.getTrapezoidDriver", [[must "constantValue", must "amplitude", must "timeStart", must "edgeTime", must "steadyTime"]]),
  ("ScalarDriver.getGaussianImpulseDriver", [[must "constantValue", must "amplitude", must "t0", must "sigma"]]),
  ("ScalarDriver.getGaussianStepDriver", [[must "constantValue", must "amplitude", must "t0", must "sigma"]]),
  ("ScalarDriver.getPosSineDriver", [[must "constantValue", must "amplitude", must "frequency", must "phase"]]),
  ("stack.ParallelStack.__init__", [[must "junctionList", mayBe "topId" (.text "free"), mayBe "bottomId" (.text "bottom"), mayBe "phaseOffset" (.num 0 0)]]),
  ("stack.ParallelStack.clearLogs", [[]]),
  ("stack.ParallelStack.getLog", [[must "junctionId"], []]),
  ("stack.ParallelStack.runSimulation", [[must "totalTime", mayBe "timeStep" (.num 1 (-13)), mayBe "writeFrequency" (.num 1 (-11))]]),
  ("stack.ParallelStack.setCoupledCurrentDriver", [[must "driver"]]),
  ("stack.ParallelStack.setCouplingStrength", [[must "coupling"]]),
  ("stack.ParallelStack.setExternalFieldDriver", [[must "driver"]]),
  ("stack.ParallelStack.setMagnetisation", [[must "junctionId", must "layerId", must "mag"]]),
  ("stack.ParallelStack.getMagnetisation", [[must "junction", must "layerId"]]),
  ("stack.ParallelStack.getJunction", [[must "junctionId"]]),
  ("stack.SeriesStack.__init__", [[must "junctionList", mayBe "topId" (.text "free"), mayBe "bottomId" (.text "bottom"), mayBe "phaseOffset" (.num 0 0)]]),
  ("stack.SeriesStack.clearLogs", [[]]),
  ("stack.SeriesStack.getLog", [[must "junctionId"], []]),
  ("stack.SeriesStack.runSimulation", [[must "totalTime", mayBe "timeStep" (.num 1 (-13)), mayBe "writeFrequency" (.num 1 (-11))]]),
  ("stack.SeriesStack.setCoupledCurrentDriver", [[must "driver"]]),
  ("stack.SeriesStack.setCouplingStrength", [[must "coupling"], [must "coupling"]]),
  ("stack.SeriesStack.setExternalFieldDriver", [[must "driver"]]),
  ("stack.SeriesStack.setMagnetisation", [[must "junctionId", must "layerId", must "mag"]]),
  ("stack.SeriesStack.getMagnetisation", [[must "junction", must "layerId"]]),
  ("stack.SeriesStack.getJunction", [[must "junctionId"]]),
  ("reservoir.GroupInteraction.__init__", [[must "coordinateMatrix", must "junctionList", mayBe "topId" (.text "free")]]),
  ("reservoir.GroupInteraction.clearLogs", [[]]),
  ("reservoir.GroupInteraction.getLog", [[must "junctionIndex"], []]),
  ("reservoir.GroupInteraction.runSimulation", [[must "totalTime", mayBe "timeStep" (.num 1 (-13)), mayBe "writeFrequency" (.num 1 (-13))]]),
  ("reservoir.GroupInteraction.setInteractionFunction", [[must "function"]]),
  ("reservoir.Reservoir.__init__", [[must "coordinateMatrix", must "layerMatrix"]]),
  ("reservoir.Reservoir.clearLogs", [[]]),
  ("reservoir.Reservoir.getLayer", [[must "arg0"]]),
  ("reservoir.Reservoir.getMagnetisation", [[must "arg0"]]),
  ("reservoir.Reservoir.runSimulation", [[must "totalTime", must "timeStep"]]),
  ("reservoir.Reservoir.saveLogs", [[must "filename"]]),
  ("reservoir.Reservoir.setAllExternalField", [[must "driver"]]),
  ("reservoir.Reservoir.setLayerAnisotropy", [[must "arg0", must "driver"]]),
  ("reservoir.Reservoir.setLayerExternalField", [[must "arg0", must "driver"]]),
  ("reservoir.computeDipoleInteraction", [[must "r1", must "r2", must "layer1", must "layer2"]]),
  ("reservoir.computeDipoleInteractionNoumra", [[must "r1", must "r2", must "layer1", must "layer2"]]),
  ("reservoir.nullDipoleInteraction", [[must "r1", must "r2", must "layer1", must "layer2"]]),
  ("noise.BufferedAlphaNoise.__init__", [[must "bufferSize", must "alpha", must "std", must "scale"]]),
  ("noise.BufferedAlphaNoise.fillBuffer", [[]]),
  ("noise.BufferedAlphaNoise.tick", [[]]),
  ("noise.VectorAlphaNoise.__init__", [[must "bufferSize", must "alpha", must "std", must "scale", mayBe "axis" (.member "all")]]),
  ("noise.VectorAlphaNoise.getPrevSample", [[]]),
  ("noise.VectorAlphaNoise.getScale", [[]]),
  ("noise.VectorAlphaNoise.tick", [[]]),
  ("noise.VectorAlphaNoise.tickVector", [[]]),
  ("llgb.LLGBJunction.__init__", [[must "layers"]]),
  ("llgb.LLGBJunction.clearLog", [[]]),
  ("llgb.LLGBJunction.getLog", [[]]),
  ("llgb.LLGBJunction.runSimulation", [[must "totalTime", may "timeStep", may "writeFrequency", may "log", may "solverMode"]]),
  ("llgb.LLGBJunction.saveLogs", [[must "arg0"]]),
  ("llgb.LLGBJunction.setLayerExternalFieldDriver", [[must "layerId", must "driver"]]),
  ("llgb.LLGBJunction.setLayerTemperatureDriver", [[must "layerId", must "driver"]]),
  ("llgb.LLGBLayer.__init__", [[must "id", must "mag", must "anis", must "Ms", must "thickness", must "cellSurface", must "demagTensor", must "damping", must "Tc", must "susceptibility", must "me"]]),
  ("llgb.LLGBLayer.setAnisotropyDriver", [[must "driver"]]),
  ("llgb.LLGBLayer.setExternalFieldDriver", [[must "driver"]]),
  ("llgb.LLGBLayer.setTemperatureDriver", [[must "driver"]]),
  ("llgb.MFAWeissCurie", [[must "me", must "T", must "J0", may "relax", may "tolerance", may "maxIter"]]),
  ("llgb.langevin", [[must "arg0"]]),
  ("llgb.langevinDerivative", [[must "arg0"]])]

/-- A call with positional arguments `pos` and keywords `kw` gives the parameters the values `f`, `none` for the default. -/
structure Means {α : Type} (doc : List Param) (pos : List α) (kw : List (String × α)) (f : List (Option α)) : Prop where
  length : f.length = doc.length
  few : pos.length ≤ doc.length
  positional : ∀ i, i < pos.length → f[i]? = some pos[i]?
  keyword : ∀ (i : Nat) (p : Param), pos.length ≤ i → doc[i]? = some p → f[i]? = some (kw.lookup p.name)
  known : ∀ k v, (k, v) ∈ kw → ∃ (i : Nat) (p : Param), pos.length ≤ i ∧ doc[i]? = some p ∧ p.name = k
  needed : ∀ (i : Nat) (p : Param), doc[i]? = some p → p.opt = false → f[i]? ≠ some none

/-- The parts of a dotted name, last first. -/
def parts (sep : Char) : List Char → List Char → List (List Char)
  | [], w => [w.reverse]
  | c :: s, w => if c = sep then (if w = [] then parts sep s [] else parts sep s [] ++ [w.reverse]) else parts sep s (c :: w)

/-- The C++ members for Python's special methods. -/
def special : List (String × String) := [
  ("__add__", "operator+"), ("__iadd__", "operator+="), ("__sub__", "operator-"), ("__isub__", "operator-="), ("__mul__", "operator*"),
  ("__rmul__", "operator*"), ("__imul__", "operator*="), ("__eq__", "operator=="), ("__ne__", "operator!="), ("__getitem__", "operator[]"),
  ("__len__", "3"), ("__str__", "toString"), ("__repr__", "toString")]

/-- Functions that have another name in Python. -/
def otherName : List (String × String) := [
  ("constantDriver", "ScalarDriver::getConstantDriver"), ("pulseDriver", "ScalarDriver::getPulseDriver"), ("sineDriver", "ScalarDriver::getSineDriver"),
  ("posSineDriver", "ScalarDriver::getPosSineDriver"), ("stepDriver", "ScalarDriver::getStepDriver"),
  ("trapezoidDriver", "ScalarDriver::getTrapezoidDriver"), ("gaussianImpulseDriver", "ScalarDriver::getGaussianImpulseDriver"),
  ("gaussianStepDriver", "ScalarDriver::getGaussianStepDriver"), ("Layer.createSOTLayer", "Layer::LayerSOT"),
  ("Layer.createSTTLayer", "Layer::LayerSTT"), ("Junction.saveLog", "Junction::saveLogs"), ("llgb.MFAWeissCurie", "LLGB::MFAWeissCurie"),
  ("llgb.langevin", "LLGB::langevin"), ("llgb.langevinDerivative", "LLGB::langevinDerivative")]

/-- Base classes in C++. -/
def base : List (String × String) := [("SeriesStack", "Stack"), ("ParallelStack", "Stack"), ("NullDriver", "ScalarDriver")]

/-- `target` (with the parameters in parentheses if it is overloaded) is the C++ function that a Python name stands for. -/
def StandsFor (name target : String) : Prop :=
  otherName.lookup name = some target ∨
  match parts '.' name.toList [], parts ':' (target.toList.takeWhile (· ≠ '(')) [] with
  | [f], [g] => f = g
  | f :: c :: _, [g, d] =>
    (c = d ∨ (c, d) ∈ base.map fun p => (p.1.toList, p.2.toList)) ∧
      (if f = "__init__".toList then g = c else if f ∈ special.map (·.1.toList) then (f, g) ∈ special.map fun p => (p.1.toList, p.2.toList) else f = g)
  | [f, _], [g] => f = g
  | _, _ => False

instance (name target : String) : Decidable (StandsFor name target) := by
  unfold StandsFor
  exact @instDecidableOr _ _ _ (by split <;> infer_instance)

end Stub
