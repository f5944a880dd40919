import Verif.Model.Drivers

/-!
# Model of the Python bindings (`python/cmtj.cpp`)

A table of the functions that are bound, and how pybind11 fits the arguments of a call to them.

Simplifications:
* pybind11 is modelled from its documentation: positional arguments, keywords, defaults, overloads in the order of their definition, first
  without and then with conversions.
* Values are what the conversions tell apart. Tuples and other sequences count as lists. numpy's scalars, bytes and classes of the caller
  with `__float__` or `__index__` are left out.
* The object of a method is not part of its arguments.
* Attributes (`def_readwrite`, `def_readonly`) are left out.
-/

namespace Bind
variable {T : Type} [Scalar T]

/-! ## Calls -/

/-- The classes that are bound and appear as parameters. -/
inductive Cls | CVector | ScalarDriver | NullDriver | AxialDriver | Layer | Junction | LLGBLayer
  deriving DecidableEq

/-- cmtj.cpp:178, `NullDriver` is a subclass of `ScalarDriver`; otherwise a class is only a subclass of itself. -/
def Cls.isA (c d : Cls) : Bool := c == d || (c == .NullDriver && d == .ScalarDriver)

/-- The types of parameters. -/
inductive Ty | double | int | uint | bool | str | axis | reference | mode | function | obj (c : Cls) | list (t : Ty)
  deriving DecidableEq

/-- A default: a decimal number, a text, a truth value, or a member of an enumeration. -/
inductive Lit | num (m : Int) (e : Int) | text (s : String) | flag (b : Bool) | member (s : String)
  deriving DecidableEq

/-- A parameter; without a name it takes no keyword. -/
structure Param where
  name : Option String
  ty : Ty
  dflt : Option Lit
  deriving DecidableEq

/-- One `def`: the C++ function and its parameters. -/
structure Overload where
  target : String
  params : List Param
  deriving DecidableEq

def arg (t : Ty) : Param := ⟨none, t, none⟩
def named (n : String) (t : Ty) : Param := ⟨some n, t, none⟩
def opt (n : String) (t : Ty) (d : Lit) : Param := ⟨some n, t, some d⟩

/-- Names and whether there is a default. -/
def Overload.shape (o : Overload) : List (Option String × Bool) := o.params.map fun p => (p.name, p.dflt.isSome)

/-- pybind11's assignment of the arguments of a call to parameters, `none` for a default; fails if they do not fit. -/
def fill {α : Type} : List (Option String × Bool) → List α → List (String × α) → Option (List (Option α))
  | [], [], kw => if kw.isEmpty then some [] else none
  | [], _ :: _, _ => none
  | (n, _) :: ps, a :: as, kw =>
    if (n.bind fun k => kw.lookup k).isSome then none else (fill ps as kw).map (some a :: ·)
  | (n, o) :: ps, [], kw =>
    match n.bind fun k => kw.lookup k with
    | some v => (fill ps [] (kw.filter fun p => n != some p.1)).map (some v :: ·)
    | none => if o then (fill ps [] kw).map (none :: ·) else none

/-- Python values. -/
inductive Val (T : Type)
  | none
  | bool (b : Bool)
  | int (i : Int)
  | float (x : T)
  | str (s : String)
  | axis (a : Axis)
  | reference (r : String)
  | mode (m : String)
  | function
  | vector (v : CVec T)
  | obj (c : Cls) (h : c ≠ .CVector)
  | list (l : List (Val T))

/-- The integer of a value, if it has one (`__index__`). Members of enumerations have one; it is left open. -/
def Val.isIndex : Val T → Bool
  | .bool _ | .int _ | .axis _ | .reference _ | .mode _ => true
  | _ => false

/-- The items of a sequence. `CVector` has `__len__` and `__getitem__`. -/
def Val.items : Val T → Option (List (Val T))
  | .list l => some l
  | .vector v => some [.float v.x, .float v.y, .float v.z]
  | _ => Option.none

/-- pybind11's conversions, without implicit ones; `conv` is false in the first of two passes. -/
def fits (conv : Bool) : Ty → Val T → Bool
  | .double, .float _ => true
  | .double, v => conv && v.isIndex
  | .uint, .int i => 0 ≤ i && i < 2 ^ 32
  | .uint, v => v.isIndex
  | .int, .int i => -2 ^ 31 ≤ i && i < 2 ^ 31
  | .int, v => v.isIndex
  | .bool, .bool _ => true
  | .bool, .none | .bool, .int _ | .bool, .float _ => conv
  | .str, .str _ => true
  | .axis, .axis _ => true
  | .reference, .reference _ => true
  | .mode, .mode _ => true
  | .function, .function => true
  | .function, .none => conv
  | .obj .CVector, .vector _ => true
  | .obj c, .obj d _ => d.isA c
  | .list t, v =>
    match v.items with
    | some l => l.all (fits conv t)
    | Option.none => false
  | _, _ => false

/-- cmtj.cpp:101, the constructor of `CVector` in Python. -/
def vectorInit : Overload := ⟨"CVector::CVector", [arg .double, arg .double, arg .double]⟩

/-- Whether all arguments of a filled call fit. -/
def allFit (fit : Ty → Val T → Bool) : List Param → List (Option (Val T)) → Bool
  | p :: ps, some v :: vs => fit p.ty v && allFit fit ps vs
  | _ :: ps, Option.none :: vs => allFit fit ps vs
  | [], [] => true
  | _, _ => false

/-- Whether a call fits an overload, and how. -/
def Overload.accept (fit : Ty → Val T → Bool) (o : Overload) (pos : List (Val T)) (kw : List (String × Val T)) : Option (List (Option (Val T))) :=
  match fill o.shape pos kw with
  | some f => if allFit fit o.params f then some f else Option.none
  | Option.none => Option.none

/-- cmtj.cpp:124-125, the implicit conversions of lists to `CVector`: pybind11 calls the constructor with the list. -/
def implicit (v : Val T) : Bool := fits false (.list .double) v && (vectorInit.accept (fits true) [v] []).isSome

/-- pybind11's conversions. -/
def loads (conv : Bool) : Ty → Val T → Bool
  | .obj .CVector, v => fits conv (.obj .CVector) v || (conv && implicit v)
  | .list t, v =>
    match v.items with
    | some l => l.all (loads conv t)
    | Option.none => false
  | t, v => fits conv t v

/-- The first overload that accepts the call. -/
def firstOf (conv : Bool) : List Overload → List (Val T) → List (String × Val T) → Option (String × List (Option (Val T)))
  | [], _, _ => Option.none
  | o :: os, pos, kw =>
    match o.accept (loads conv) pos kw with
    | some f => some (o.target, f)
    | Option.none => firstOf conv os pos kw

/-- pybind11's dispatcher: the C++ function that is called and its arguments, or `none` for a `TypeError`. -/
def dispatch (os : List Overload) (pos : List (Val T)) (kw : List (String × Val T)) : Option (String × List (Option (Val T))) :=
  if 1 < os.length then
    match firstOf false os pos kw with
    | some r => some r
    | Option.none => firstOf true os pos kw
  else firstOf true os pos kw

/-! ## What is bound -/

/-- cmtj.cpp:36-97, module-level functions. -/
def functions : List (String × List Overload) := [
  ("c_dot", [⟨"c_dot", [arg (.obj .CVector), arg (.obj .CVector)]⟩]),
  ("constantDriver", [⟨"ScalarDriver::getConstantDriver", [named "value" .double]⟩]),
  ("pulseDriver", [⟨"ScalarDriver::getPulseDriver", [named "constantValue" .double, named "amplitude" .double, named "period" .double, named "cycle" .double]⟩]),
  ("sineDriver", [⟨"ScalarDriver::getSineDriver", [named "constantValue" .double, named "amplitude" .double, named "frequency" .double, named "phase" .double]⟩]),
  ("posSineDriver", [⟨"ScalarDriver::getPosSineDriver", [named "constantValue" .double, named "amplitude" .double, named "frequency" .double, named "phase" .double]⟩]),
  ("stepDriver", [⟨"ScalarDriver::getStepDriver", [named "constantValue" .double, named "amplitude" .double, named "timeStart" .double, named "timeStop" .double]⟩]),
  ("trapezoidDriver", [⟨"ScalarDriver::getTrapezoidDriver", [named "constantValue" .double, named "amplitude" .double, named "timeStart" .double, named "edgeTime" .double, named "steadyTime" .double]⟩]),
  ("gaussianImpulseDriver", [⟨"ScalarDriver::getGaussianImpulseDriver", [named "constantValue" .double, named "amplitude" .double, named "t0" .double, named "sigma" .double]⟩]),
  ("gaussianStepDriver", [⟨"ScalarDriver::getGaussianStepDriver", [named "constantValue" .double, named "amplitude" .double, named "t0" .double, named "sigma" .double]⟩])]

/-- cmtj.cpp:100-122, `CVector`. -/
def cvector : List (String × List Overload) := [
  ("CVector.__init__", [⟨"CVector::CVector", [arg .double, arg .double, arg .double]⟩]),
  ("CVector.length", [⟨"CVector::length", []⟩]),
  ("CVector.normalize", [⟨"CVector::normalize", []⟩]),
  ("CVector.tolist", [⟨"CVector::tolist", []⟩]),
  ("CVector.__add__", [⟨"CVector::operator+", [arg (.obj .CVector)]⟩]),
  ("CVector.__iadd__", [⟨"CVector::operator+=", [arg (.obj .CVector)]⟩]),
  ("CVector.__sub__", [⟨"CVector::operator-", [arg (.obj .CVector)]⟩]),
  ("CVector.__isub__", [⟨"CVector::operator-=", [arg (.obj .CVector)]⟩]),
  ("CVector.__imul__", [⟨"CVector::operator*=", [arg .double]⟩]),
  ("CVector.__eq__", [⟨"CVector::operator==", [arg (.obj .CVector)]⟩]),
  ("CVector.__ne__", [⟨"CVector::operator!=", [arg (.obj .CVector)]⟩]),
  ("CVector.__rmul__", [⟨"CVector::operator*", [arg .double]⟩]),
  ("CVector.__mul__", [⟨"CVector::operator*", [arg .double]⟩]),
  ("CVector.__getitem__", [⟨"CVector::operator[]", [arg .int]⟩]),
  ("CVector.__len__", [⟨"CVector::3", []⟩]),
  ("CVector.__str__", [⟨"CVector::toString", []⟩]),
  ("CVector.__repr__", [⟨"CVector::toString", []⟩])]

/-- cmtj.cpp:150-181, `ScalarDriver` and `NullDriver`. -/
def scalarDriver : List (String × List Overload) := [
  ("ScalarDriver.__init__", [⟨"ScalarDriver::ScalarDriver", []⟩]),
  ("ScalarDriver.__add__", [⟨"ScalarDriver::operator+", [arg .double]⟩]),
  ("ScalarDriver.__iadd__", [⟨"ScalarDriver::operator+=", [arg .double]⟩]),
  ("ScalarDriver.__mul__", [⟨"ScalarDriver::operator*", [arg .double]⟩]),
  ("ScalarDriver.__imul__", [⟨"ScalarDriver::operator*=", [arg .double]⟩]),
  ("ScalarDriver.getCurrentScalarValue", [⟨"ScalarDriver::getCurrentScalarValue", [named "time" .double]⟩]),
  ("ScalarDriver.getConstantDriver", [⟨"ScalarDriver::getConstantDriver", [named "constantValue" .double]⟩]),
  ("ScalarDriver.getPulseDriver", [⟨"ScalarDriver::getPulseDriver", [named "constantValue" .double, named "amplitude" .double, named "period" .double, named "cycle" .double]⟩]),
  ("ScalarDriver.getSineDriver", [⟨"ScalarDriver::getSineDriver", [named "constantValue" .double, named "amplitude" .double, named "frequency" .double, named "phase" .double]⟩]),
  ("ScalarDriver.getPosSineDriver", [⟨"ScalarDriver::getPosSineDriver", [named "constantValue" .double, named "amplitude" .double, named "frequency" .double, named "phase" .double]⟩]),
  ("ScalarDriver.getStepDriver", [⟨"ScalarDriver::getStepDriver", [named "constantValue" .double, named "amplitude" .double, named "timeStart" .double, named "timeStop" .double]⟩]),
  ("ScalarDriver.getTrapezoidDriver", [⟨"ScalarDriver::getTrapezoidDriver", [named "constantValue" .double, named "amplitude" .double, named "timeStart" .double, named "edgeTime" .double, named "steadyTime" .double]⟩]),
  ("ScalarDriver.getGaussianImpulseDriver", [⟨"ScalarDriver::getGaussianImpulseDriver", [named "constantValue" .double, named "amplitude" .double, named "t0" .double, named "sigma" .double]⟩]),
  ("ScalarDriver.getGaussianStepDriver", [⟨"ScalarDriver::getGaussianStepDriver", [named "constantValue" .double, named "amplitude" .double, named "t0" .double, named "sigma" .double]⟩]),
  ("NullDriver.__init__", [⟨"NullDriver::NullDriver", []⟩]),
  ("NullDriver.getCurrentScalarValue", [⟨"ScalarDriver::getCurrentScalarValue", [named "time" .double]⟩])]

/-- cmtj.cpp:183-194, `AxialDriver`. `getVectorAxialDriver` is static in C++: as a method its first parameter gets the object. -/
def axialDriver : List (String × List Overload) := [
  ("AxialDriver.__init__", [
    ⟨"AxialDriver::AxialDriver(ScalarDriver, ScalarDriver, ScalarDriver)", [arg (.obj .ScalarDriver), arg (.obj .ScalarDriver), arg (.obj .ScalarDriver)]⟩,
    ⟨"AxialDriver::AxialDriver(vector<ScalarDriver>)", [arg (.list (.obj .ScalarDriver))]⟩,
    ⟨"AxialDriver::AxialDriver(T, T, T)", [arg .double, arg .double, arg .double]⟩,
    ⟨"AxialDriver::AxialDriver(CVector)", [arg (.obj .CVector)]⟩]),
  ("AxialDriver.getCurrentAxialDrivers", [⟨"AxialDriver::getCurrentAxialDrivers", [named "time" .double]⟩]),
  ("AxialDriver.applyMask", [
    ⟨"AxialDriver::applyMask(CVector)", [arg (.obj .CVector)]⟩,
    ⟨"AxialDriver::applyMask(vector<unsigned int>)", [arg (.list .uint)]⟩])]

/-- cmtj.cpp:196-248, `Layer`. -/
def layer : List (String × List Overload) := [
  ("Layer.__init__", [⟨"Layer::Layer", [named "id" .str, named "mag" (.obj .CVector), named "anis" (.obj .CVector), named "Ms" .double, named "thickness" .double, named "cellSurface" .double, named "demagTensor" (.list (.obj .CVector)), opt "damping" .double (.num 11 (-3))]⟩]),
  ("Layer.createSOTLayer", [⟨"Layer::LayerSOT", [named "id" .str, named "mag" (.obj .CVector), named "anis" (.obj .CVector), named "Ms" .double, named "thickness" .double, named "cellSurface" .double, named "demagTensor" (.list (.obj .CVector)), opt "damping" .double (.num 11 (-3)), opt "fieldLikeTorque" .double (.num 0 0), opt "dampingLikeTorque" .double (.num 0 0)]⟩]),
  ("Layer.createSTTLayer", [⟨"Layer::LayerSTT", [named "id" .str, named "mag" (.obj .CVector), named "anis" (.obj .CVector), named "Ms" .double, named "thickness" .double, named "cellSurface" .double, named "demagTensor" (.list (.obj .CVector)), opt "damping" .double (.num 11 (-3)), opt "SlonczewskiSpacerLayerParameter" .double (.num 1 0), opt "beta" .double (.num 0 0), opt "spinPolarisation" .double (.num 0 0)]⟩]),
  ("Layer.setMagnetisation", [⟨"Layer::setMagnetisation", [arg (.obj .CVector)]⟩]),
  ("Layer.setAnisotropyDriver", [⟨"Layer::setAnisotropyDriver", [arg (.obj .ScalarDriver)]⟩]),
  ("Layer.setExternalFieldDriver", [⟨"Layer::setExternalFieldDriver", [arg (.obj .AxialDriver)]⟩]),
  ("Layer.setOerstedFieldDriver", [⟨"Layer::setOerstedFieldDriver", [arg (.obj .AxialDriver)]⟩]),
  ("Layer.setHdmiDriver", [⟨"Layer::setHdmiDriver", [arg (.obj .AxialDriver)]⟩]),
  ("Layer.setReferenceLayer", [
    ⟨"Layer::setReferenceLayer(CVector)", [arg (.obj .CVector)]⟩,
    ⟨"Layer::setReferenceLayer(Reference)", [arg .reference]⟩]),
  ("Layer.setFieldLikeTorqueDriver", [⟨"Layer::setFieldLikeTorqueDriver", [arg (.obj .ScalarDriver)]⟩]),
  ("Layer.setDampingLikeTorqueDriver", [⟨"Layer::setDampingLikeTorqueDriver", [arg (.obj .ScalarDriver)]⟩]),
  ("Layer.setTemperatureDriver", [⟨"Layer::setTemperatureDriver", [arg (.obj .ScalarDriver)]⟩]),
  ("Layer.setTopDipoleTensor", [⟨"Layer::setTopDipoleTensor", [arg (.list (.obj .CVector))]⟩]),
  ("Layer.setBottomDipoleTensor", [⟨"Layer::setBottomDipoleTensor", [arg (.list (.obj .CVector))]⟩]),
  ("Layer.setKappa", [⟨"Layer::setKappa", [arg .double]⟩]),
  ("Layer.setAlternativeSTT", [⟨"Layer::setAlternativeSTT", [arg .bool]⟩]),
  ("Layer.setAlphaNoise", [⟨"Layer::setAlphaNoise", [arg .double, arg .double, arg .double, arg .axis]⟩]),
  ("Layer.setOneFNoise", [⟨"Layer::setOneFNoise", [arg .uint, arg .double, arg .double]⟩]),
  ("Layer.getId", [⟨"Layer::getId", []⟩]),
  ("Layer.getOneFVector", [⟨"Layer::getOneFVector", []⟩]),
  ("Layer.createBufferedAlphaNoise", [⟨"Layer::createBufferedAlphaNoise", [arg .uint]⟩])]

/-- cmtj.cpp:250-305, `Junction`. -/
def junction : List (String × List Overload) := [
  ("Junction.__init__", [
    ⟨"Junction::Junction(layers)", [named "layers" (.list (.obj .Layer))]⟩,
    ⟨"Junction::Junction(layers, Rp, Rap)", [named "layers" (.list (.obj .Layer)), opt "Rp" .double (.num 1 2), opt "Rap" .double (.num 2 2)]⟩,
    ⟨"Junction::Junction(layers, Rx0, Ry0, AMR_X, AMR_Y, SMR_X, SMR_Y, AHE)", [named "layers" (.list (.obj .Layer)), named "Rx0" (.list .double), named "Ry0" (.list .double), named "AMR_X" (.list .double), named "AMR_Y" (.list .double), named "SMR_X" (.list .double), named "SMR_Y" (.list .double), named "AHE" (.list .double)]⟩]),
  ("Junction.getLog", [⟨"Junction::getLog", []⟩]),
  ("Junction.clearLog", [⟨"Junction::clearLog", []⟩]),
  ("Junction.saveLog", [⟨"Junction::saveLogs", [named "filename" .str]⟩]),
  ("Junction.runSimulation", [⟨"Junction::runSimulation", [named "totalTime" .double, opt "timeStep" .double (.num 1 (-13)), opt "writeFrequency" .double (.num 1 (-11)), opt "log" .bool (.flag false), opt "calculateEnergies" .bool (.flag false), opt "solverMode" .mode (.member "RK4")]⟩]),
  ("Junction.setLayerOerstedFieldDriver", [
    ⟨"Junction::setLayerOerstedFieldDriver", [arg .str, arg (.obj .AxialDriver)]⟩,
    ⟨"Junction::setLayerOerstedFieldDriver", [arg .str, arg (.obj .AxialDriver)]⟩]),
  ("Junction.setLayerExternalFieldDriver", [⟨"Junction::setLayerExternalFieldDriver", [arg .str, arg (.obj .AxialDriver)]⟩]),
  ("Junction.setLayerCurrentDriver", [⟨"Junction::setLayerCurrentDriver", [arg .str, arg (.obj .ScalarDriver)]⟩]),
  ("Junction.setLayerAnisotropyDriver", [⟨"Junction::setLayerAnisotropyDriver", [arg .str, arg (.obj .ScalarDriver)]⟩]),
  ("Junction.setLayerMagnetisation", [⟨"Junction::setLayerMagnetisation", [arg .str, arg (.obj .CVector)]⟩]),
  ("Junction.setLayerHdmiDriver", [⟨"Junction::setLayerHdmiDriver", [arg .str, arg (.obj .AxialDriver)]⟩]),
  ("Junction.setIECDriver", [⟨"Junction::setIECDriver", [arg .str, arg .str, arg (.obj .ScalarDriver)]⟩]),
  ("Junction.setQuadIECDriver", [⟨"Junction::setQuadIECDriver", [arg .str, arg .str, arg (.obj .ScalarDriver)]⟩]),
  ("Junction.setIDMIDriver", [⟨"Junction::setIDMIDriver", [arg .str, arg .str, arg (.obj .AxialDriver)]⟩]),
  ("Junction.setLayerTemperatureDriver", [⟨"Junction::setLayerTemperatureDriver", [arg .str, arg (.obj .ScalarDriver)]⟩]),
  ("Junction.setLayerNonStochasticLangevinDriver", [⟨"Junction::setLayerNonStochasticLangevinDriver", [arg .str, arg (.obj .ScalarDriver)]⟩]),
  ("Junction.setLayerOneFNoise", [⟨"Junction::setLayerOneFNoise", [arg .str, arg .uint, arg .double, arg .double]⟩]),
  ("Junction.setLayerFieldLikeTorqueDriver", [⟨"Junction::setLayerFieldLikeTorqueDriver", [arg .str, arg (.obj .ScalarDriver)]⟩]),
  ("Junction.setLayerDampingLikeTorqueDriver", [⟨"Junction::setLayerDampingLikeTorqueDriver", [arg .str, arg (.obj .ScalarDriver)]⟩]),
  ("Junction.setLayerReferenceType", [⟨"Junction::setLayerReferenceType", [arg .str, arg .reference]⟩]),
  ("Junction.setLayerReferenceLayer", [⟨"Junction::setLayerReferenceLayer", [arg .str, arg (.obj .CVector)]⟩]),
  ("Junction.setLayerAlternativeSTT", [⟨"Junction::setLayerAlternativeSTT", [arg .str, arg .bool]⟩]),
  ("Junction.getLayerMagnetisation", [⟨"Junction::getLayerMagnetisation", [arg .str]⟩]),
  ("Junction.getMagnetoresistance", [⟨"Junction::getMagnetoresistance", []⟩]),
  ("Junction.getLayerIds", [⟨"Junction::getLayerIds", []⟩]),
  ("Junction.getLayer", [⟨"Junction::getLayer", [named "layerId" .str]⟩])]

/-- cmtj.cpp:311-342, `SeriesStack`; the members come from `Stack`. -/
def seriesStack : List (String × List Overload) := [
  ("stack.SeriesStack.__init__", [⟨"SeriesStack::SeriesStack", [named "junctionList" (.list (.obj .Junction)), opt "topId_a" .str (.text "free"), opt "bottomId" .str (.text "bottom"), opt "phaseOffset" .double (.num 0 0)]⟩]),
  ("stack.SeriesStack.runSimulation", [⟨"SeriesStack::runSimulation", [named "totalTime" .double, opt "timeStep" .double (.num 1 (-13)), opt "writeFrequency" .double (.num 1 (-11))]⟩]),
  ("stack.SeriesStack.setMagnetisation", [⟨"Stack::setMagnetisation", [named "junction" .uint, named "layerId" .str, named "mag" (.obj .CVector)]⟩]),
  ("stack.SeriesStack.getMagnetisation", [⟨"Stack::getMagnetisation", [named "junction" .uint, named "layerId" .str]⟩]),
  ("stack.SeriesStack.setCoupledCurrentDriver", [⟨"Stack::setCoupledCurrentDriver", [named "driver" (.obj .ScalarDriver)]⟩]),
  ("stack.SeriesStack.setExternalFieldDriver", [⟨"Stack::setExternalFieldDriver", [named "driver" (.obj .AxialDriver)]⟩]),
  ("stack.SeriesStack.setCouplingStrength", [
    ⟨"Stack::setCouplingStrength(T)", [named "coupling" .double]⟩,
    ⟨"Stack::setCouplingStrength(vector<T>)", [named "coupling" (.list .double)]⟩]),
  ("stack.SeriesStack.setDelayed", [⟨"Stack::setDelayed", [named "delayed" .bool]⟩]),
  ("stack.SeriesStack.getJunction", [⟨"Stack::getJunction", [named "junctionId" .uint]⟩]),
  ("stack.SeriesStack.setJunctionAnisotropyDriver", [⟨"Stack::setJunctionAnisotropyDriver", [named "junctionId" .uint, named "layerId" .str, named "k" (.obj .ScalarDriver)]⟩]),
  ("stack.SeriesStack.clearLogs", [⟨"Stack::clearLogs", []⟩]),
  ("stack.SeriesStack.getLog", [
    ⟨"Stack::getLog(unsigned int)", [arg .uint]⟩,
    ⟨"Stack::getLog()", []⟩])]

/-- cmtj.cpp:344-376, `ParallelStack`; the members come from `Stack`. -/
def parallelStack : List (String × List Overload) := [
  ("stack.ParallelStack.__init__", [⟨"ParallelStack::ParallelStack", [named "junctionList" (.list (.obj .Junction)), opt "topId_a" .str (.text "free"), opt "bottomId" .str (.text "bottom"), opt "phaseOffset" .double (.num 0 0)]⟩]),
  ("stack.ParallelStack.runSimulation", [⟨"ParallelStack::runSimulation", [named "totalTime" .double, opt "timeStep" .double (.num 1 (-13)), opt "writeFrequency" .double (.num 1 (-11))]⟩]),
  ("stack.ParallelStack.setMagnetisation", [⟨"Stack::setMagnetisation", [named "junction" .uint, named "layerId" .str, named "mag" (.obj .CVector)]⟩]),
  ("stack.ParallelStack.getMagnetisation", [⟨"Stack::getMagnetisation", [named "junction" .uint, named "layerId" .str]⟩]),
  ("stack.ParallelStack.setCoupledCurrentDriver", [⟨"Stack::setCoupledCurrentDriver", [named "driver" (.obj .ScalarDriver)]⟩]),
  ("stack.ParallelStack.setExternalFieldDriver", [⟨"Stack::setExternalFieldDriver", [named "driver" (.obj .AxialDriver)]⟩]),
  ("stack.ParallelStack.setCouplingStrength", [
    ⟨"Stack::setCouplingStrength(T)", [named "coupling" .double]⟩,
    ⟨"Stack::setCouplingStrength(vector<T>)", [named "coupling" (.list .double)]⟩]),
  ("stack.ParallelStack.setDelayed", [⟨"Stack::setDelayed", [named "delayed" .bool]⟩]),
  ("stack.ParallelStack.getJunction", [⟨"Stack::getJunction", [named "junctionId" .uint]⟩]),
  ("stack.ParallelStack.setJunctionAnisotropyDriver", [⟨"Stack::setJunctionAnisotropyDriver", [named "junctionId" .uint, named "layerId" .str, named "k" (.obj .ScalarDriver)]⟩]),
  ("stack.ParallelStack.clearLogs", [⟨"Stack::clearLogs", []⟩]),
  ("stack.ParallelStack.getLog", [
    ⟨"Stack::getLog(unsigned int)", [arg .uint]⟩,
    ⟨"Stack::getLog()", []⟩])]

/-- cmtj.cpp:379-407, the reservoir module. -/
def reservoir : List (String × List Overload) := [
  ("reservoir.nullDipoleInteraction", [⟨"nullDipoleInteraction", [named "r1" (.obj .CVector), named "r2" (.obj .CVector), named "layer1" (.obj .Layer), named "layer2" (.obj .Layer)]⟩]),
  ("reservoir.computeDipoleInteraction", [⟨"computeDipoleInteraction", [named "r1" (.obj .CVector), named "r2" (.obj .CVector), named "layer1" (.obj .Layer), named "layer2" (.obj .Layer)]⟩]),
  ("reservoir.computeDipoleInteractionNoumra", [⟨"computeDipoleInteractionNoumra", [named "r1" (.obj .CVector), named "r2" (.obj .CVector), named "layer1" (.obj .Layer), named "layer2" (.obj .Layer)]⟩]),
  ("reservoir.GroupInteraction.__init__", [⟨"GroupInteraction::GroupInteraction", [named "coordinateMatrix" (.list (.obj .CVector)), named "junctionList" (.list (.obj .Junction)), opt "topId" .str (.text "free")]⟩]),
  ("reservoir.GroupInteraction.setInteractionFunction", [⟨"GroupInteraction::setInteractionFunction", [arg .function]⟩]),
  ("reservoir.GroupInteraction.runSimulation", [⟨"GroupInteraction::runSimulation", [named "totalTime" .double, opt "timeStep" .double (.num 1 (-13)), opt "writeFrequency" .double (.num 1 (-11))]⟩]),
  ("reservoir.GroupInteraction.clearLogs", [⟨"GroupInteraction::clearLogs", []⟩]),
  ("reservoir.GroupInteraction.getLog", [
    ⟨"GroupInteraction::getLog(unsigned int)", [arg .uint]⟩,
    ⟨"GroupInteraction::getLog(unsigned int)", [arg .uint]⟩]),
  ("reservoir.Reservoir.__init__", [⟨"Reservoir::Reservoir", [named "coordinateMatrix" (.list (.list (.obj .CVector))), named "layerMatrix" (.list (.list (.obj .Layer)))]⟩]),
  ("reservoir.Reservoir.runSimulation", [⟨"Reservoir::runSimulation", [arg .double, arg .double]⟩]),
  ("reservoir.Reservoir.clearLogs", [⟨"Reservoir::clearLogs", []⟩]),
  ("reservoir.Reservoir.saveLogs", [⟨"Reservoir::saveLogs", [arg .str]⟩]),
  ("reservoir.Reservoir.getLayer", [⟨"Reservoir::getLayer", [arg .uint]⟩]),
  ("reservoir.Reservoir.setAllExternalField", [⟨"Reservoir::setAllExternalField", [arg (.obj .AxialDriver)]⟩]),
  ("reservoir.Reservoir.setLayerAnisotropy", [⟨"Reservoir::setLayerAnisotropy", [arg .uint, arg (.obj .ScalarDriver)]⟩]),
  ("reservoir.Reservoir.setLayerExternalField", [⟨"Reservoir::setLayerExternalField", [arg .uint, arg (.obj .AxialDriver)]⟩]),
  ("reservoir.Reservoir.getMagnetisation", [⟨"Reservoir::getMagnetisation", [arg .uint]⟩])]

/-- cmtj.cpp:411-424, the noise module. -/
def noise : List (String × List Overload) := [
  ("noise.BufferedAlphaNoise.__init__", [⟨"BufferedAlphaNoise::BufferedAlphaNoise", [named "bufferSize" .uint, named "alpha" .double, named "std" .double, named "scale" .double]⟩]),
  ("noise.BufferedAlphaNoise.fillBuffer", [⟨"BufferedAlphaNoise::fillBuffer", []⟩]),
  ("noise.BufferedAlphaNoise.tick", [⟨"BufferedAlphaNoise::tick", []⟩]),
  ("noise.VectorAlphaNoise.__init__", [⟨"VectorAlphaNoise::VectorAlphaNoise", [named "bufferSize" .uint, named "alpha" .double, named "std" .double, named "scale" .double, opt "axis" .axis (.member "all")]⟩]),
  ("noise.VectorAlphaNoise.tickVector", [⟨"VectorAlphaNoise::tickVector", []⟩]),
  ("noise.VectorAlphaNoise.tick", [⟨"VectorAlphaNoise::tick", []⟩]),
  ("noise.VectorAlphaNoise.getPrevSample", [⟨"VectorAlphaNoise::getPrevSample", []⟩]),
  ("noise.VectorAlphaNoise.getScale", [⟨"VectorAlphaNoise::getScale", []⟩])]

/-- cmtj.cpp:426-456, the LLGB module. -/
def llgb : List (String × List Overload) := [
  ("llgb.MFAWeissCurie", [⟨"LLGB::MFAWeissCurie", [named "me" .double, named "T" .double, named "J0" .double, opt "relax" .double (.num 2 (-1)), opt "tolerance" .double (.num 1 (-6)), opt "maxIter" .uint (.num 1 3)]⟩]),
  ("llgb.langevin", [⟨"LLGB::langevin", [arg .double]⟩]),
  ("llgb.langevinDerivative", [⟨"LLGB::langevinDerivative", [arg .double]⟩]),
  ("llgb.LLGBLayer.__init__", [⟨"LLGBLayer::LLGBLayer", [named "id" .str, named "mag" (.obj .CVector), named "anis" (.obj .CVector), named "Ms" .double, named "thickness" .double, named "cellSurface" .double, named "demagTensor" (.list (.obj .CVector)), named "damping" .double, named "Tc" .double, named "susceptibility" .double, named "me" .double]⟩]),
  ("llgb.LLGBLayer.setTemperatureDriver", [⟨"LLGBLayer::setTemperatureDriver", [arg (.obj .ScalarDriver)]⟩]),
  ("llgb.LLGBLayer.setExternalFieldDriver", [⟨"LLGBLayer::setExternalFieldDriver", [arg (.obj .AxialDriver)]⟩]),
  ("llgb.LLGBLayer.setAnisotropyDriver", [⟨"LLGBLayer::setAnisotropyDriver", [arg (.obj .ScalarDriver)]⟩]),
  ("llgb.LLGBJunction.__init__", [⟨"LLGBJunction::LLGBJunction", [named "layers" (.list (.obj .LLGBLayer))]⟩]),
  ("llgb.LLGBJunction.runSimulation", [⟨"LLGBJunction::runSimulation", [named "totalTime" .double, opt "timeStep" .double (.num 1 (-13)), opt "writeFrequency" .double (.num 1 (-11)), opt "log" .bool (.flag false), opt "solverMode" .mode (.member "HEUN")]⟩]),
  ("llgb.LLGBJunction.setLayerTemperatureDriver", [⟨"LLGBJunction::setLayerTemperatureDriver", [arg .str, arg (.obj .ScalarDriver)]⟩]),
  ("llgb.LLGBJunction.setLayerExternalFieldDriver", [⟨"LLGBJunction::setLayerExternalFieldDriver", [arg .str, arg (.obj .AxialDriver)]⟩]),
  ("llgb.LLGBJunction.saveLogs", [⟨"LLGBJunction::saveLogs", [arg .str]⟩]),
  ("llgb.LLGBJunction.getLog", [⟨"LLGBJunction::getLog", []⟩]),
  ("llgb.LLGBJunction.clearLog", [⟨"LLGBJunction::clearLog", []⟩])]

/-- cmtj.cpp:34-457, all that is bound. -/
def table : List (String × List Overload) :=
  functions ++ cvector ++ scalarDriver ++ axialDriver ++ layer ++ junction ++ seriesStack ++ parallelStack ++ reservoir ++ noise ++ llgb

/-- The overloads of a function. -/
def bound (fn : String) : List Overload := (table.lookup fn).getD []

/-- cmtj.cpp:188, `getVectorAxialDriver` with the object as first argument. -/
def vectorAxialDriver : Overload := ⟨"AxialDriver::getVectorAxialDriver", [arg .double, arg .double, arg .double]⟩

/-- cmtj.cpp:127-147, the names that `export_values` puts into the module, in order, with their enumeration. -/
def exported : List (String × String) := [
  ("xaxis", "Axis"), ("yaxis", "Axis"), ("zaxis", "Axis"), ("all", "Axis"), ("none", "Axis"),
  ("none", "Reference"), ("fixed", "Reference"), ("top", "Reference"), ("bottom", "Reference"),
  ("RK4", "SolverMode"), ("Heun", "SolverMode"), ("EulerHeun", "SolverMode"), ("DormandPrice", "SolverMode")]

/-- An attribute of the module: the last assignment counts. -/
def moduleName (name : String) : Option String := exported.reverse.lookup name

/-! ## `CVector` in Python -/

/-- cmtj.cpp:118-119, `v[key]`. -/
def getItem (v : CVec T) (key : Int) : Except Err T := .ok (v.get key)

/-- cmtj.cpp:120, `len(v)`. -/
def len (_v : CVec T) : Nat := 3

/-- Iteration over an object that has `__getitem__` and no `__iter__`: the items up to the first `IndexError`. `n` is the number of steps;
the result is the items so far and whether the iteration has ended. -/
def iterate (get : Int → Except Err T) : Nat → Nat → Except Err (List T × Bool)
  | _, 0 => .ok ([], false)
  | i, n + 1 =>
    match get i with
    | .error .indexError => .ok ([], true)
    | .error e => .error e
    | .ok x =>
      match iterate get (i + 1) n with
      | .error e => .error e
      | .ok (xs, done) => .ok (x :: xs, done)

/-- `a1, …, an = v`: Python takes `n` items and then checks that there are no more. -/
def unpack (get : Int → Except Err T) (n : Nat) : Except Err (List T) :=
  match iterate get 0 (n + 1) with
  | .error e => .error e
  | .ok (xs, done) => if done && xs.length == n then .ok xs else .error .valueError

end Bind
