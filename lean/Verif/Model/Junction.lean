import Verif.Model.Layer
import Verif.Model.Log

/-!
# Model of `core/junction.hpp`, part 2: `Junction`

`layerNo` is set once in the constructors to `layers.size()` and the vector is never resized, so it is not a
separate field. `logLength` is an unbounded natural number (C++: `unsigned`). Console output and timing are
left out; `saveLogs` is modelled by the table of cells it reads.
-/

/-- junction.hpp:894. -/
inductive MRmode | NONE | CLASSIC | STRIP
  deriving DecidableEq, Repr

/-- junction.hpp:889-905. -/
structure Junction (T : Type) where
  mrMode : MRmode
  layers : List (Layer T)
  Rp : T
  Rap : T
  Rx0 : List T
  Ry0 : List T
  AMR_X : List T
  AMR_Y : List T
  SMR_X : List T
  SMR_Y : List T
  AHE : List T
  log : Log T
  logLength : Nat
  Rtag : String

namespace Junction
variable {T : Type} [Scalar T]

/-- number of layers -/
def layerNo (j : Junction T) : Nat := j.layers.length

/-! ### Constructors, junction.hpp:914-985 -/

/-- junction.hpp:914-921, no magnetoresistance. `Rp` is uninitialised in C++ and never read in this mode. -/
def plain (layers : List (Layer T)) : Except Err (Junction T) :=
  if layers.length = 0 then .error .noLayers
  else .ok { mrMode := .NONE, layers := layers, Rp := 0, Rap := 0, Rx0 := [], Ry0 := [], AMR_X := [],
             AMR_Y := [], SMR_X := [], SMR_Y := [], AHE := [], log := [], logLength := 0, Rtag := "R" }

/-- junction.hpp:922-942, classic magnetoresistance. -/
def classic (layers : List (Layer T)) (Rp Rap : T) : Except Err (Junction T) :=
  match plain layers with
  | .error e => .error e
  | .ok j =>
    match layers with
    | [] => .error .noLayers
    | [l] =>
      if Scalar.eqb l.referenceLayer.length 0 then .error .noPinning
      else .ok { j with Rp := Rp, Rap := Rap, mrMode := .CLASSIC }
    | [l0, l1] =>
      .ok { j with Rp := Rp, Rap := Rap, mrMode := .CLASSIC, Rtag := "R_" ++ l0.id ++ "_" ++ l1.id }
    | _ => .error .tooManyLayers

/-- junction.hpp:958-985, strip magnetoresistance. -/
def strip (layers : List (Layer T)) (Rx0 Ry0 AMR_X AMR_Y SMR_X SMR_Y AHE : List T) :
    Except Err (Junction T) :=
  if layers.length = 0 then .error .noLayers
  else if layers.length ≠ Rx0.length ∨ layers.length ≠ Ry0.length ∨ layers.length ≠ AMR_X.length ∨
      layers.length ≠ AMR_Y.length ∨ layers.length ≠ AHE.length ∨ layers.length ≠ SMR_X.length ∨
      layers.length ≠ SMR_Y.length then .error .mrLengths
  else .ok { mrMode := .STRIP, layers := layers, Rp := 0, Rap := 0, Rx0 := Rx0, Ry0 := Ry0, AMR_X := AMR_X,
             AMR_Y := AMR_Y, SMR_X := SMR_X, SMR_Y := SMR_Y, AHE := AHE, log := [], logLength := 0,
             Rtag := "R" }

/-- junction.hpp:1002-1005, `clearLog`. -/
def clearLog (j : Junction T) : Junction T := { j with log := [], logLength := 0 }

/-! ### Setters -/

/-- The loop of junction.hpp:1013-1026, 1028-1041 and 1224-1236: apply a (possibly throwing) setter to every
layer whose id matches, or to all; stop at the first throw. The Boolean is `found`. -/
def setLoop (layerID : String) (f : Layer T → Out (Layer T) Unit) :
    List (Layer T) → Out (List (Layer T)) Bool
  | [] => .ok false []
  | l :: ls =>
    if l.id = layerID ∨ layerID = "all" then
      match f l with
      | ⟨.error e, l'⟩ => ⟨.error e, l' :: ls⟩
      | ⟨.ok _, l'⟩ =>
        match setLoop layerID f ls with
        | ⟨.error e, ls'⟩ => ⟨.error e, l' :: ls'⟩
        | ⟨.ok _, ls'⟩ => ⟨.ok true, l' :: ls'⟩
    else
      match setLoop layerID f ls with
      | ⟨.error e, ls'⟩ => ⟨.error e, l :: ls'⟩
      | ⟨.ok b, ls'⟩ => ⟨.ok b, l :: ls'⟩

/-- junction.hpp:1013-1026 (`scalarlayerSetter`), 1028-1041 (`axiallayerSetter`), 1224-1236
(`setLayerMagnetisation`): the three have the same shape. Throws if no layer matched. -/
def layerSetter (j : Junction T) (layerID : String) (f : Layer T → Out (Layer T) Unit) :
    Out (Junction T) Unit :=
  match setLoop layerID f j.layers with
  | ⟨.error e, ls⟩ => .fail e { j with layers := ls }
  | ⟨.ok true, ls⟩ => .ok () { j with layers := ls }
  | ⟨.ok false, ls⟩ => .fail .layerNotFound { j with layers := ls }

/-- A setter that cannot throw. -/
def pureSetter (f : Layer T → Layer T) : Layer T → Out (Layer T) Unit := fun l => .ok () (f l)

/-- junction.hpp:1115-1118. -/
def setLayerTemperatureDriver (j : Junction T) (id : String) (d : ScalarDriver T) : Out (Junction T) Unit :=
  j.layerSetter id (pureSetter (·.setTemperatureDriver d))
/-- junction.hpp:1119-1123. -/
def setLayerNonStochasticLangevinDriver (j : Junction T) (id : String) (d : ScalarDriver T) :
    Out (Junction T) Unit := j.layerSetter id (pureSetter (·.setNonStochasticLangevinDriver d))
/-- junction.hpp:1124-1127. -/
def setLayerAnisotropyDriver (j : Junction T) (id : String) (d : ScalarDriver T) : Out (Junction T) Unit :=
  j.layerSetter id (pureSetter (·.setAnisotropyDriver d))
/-- junction.hpp:1128-1131. -/
def setLayerExternalFieldDriver (j : Junction T) (id : String) (d : AxialDriver T) : Out (Junction T) Unit :=
  j.layerSetter id (pureSetter (·.setExternalFieldDriver d))
/-- junction.hpp:1132-1135. -/
def setLayerOerstedFieldDriver (j : Junction T) (id : String) (d : AxialDriver T) : Out (Junction T) Unit :=
  j.layerSetter id (pureSetter (·.setOerstedFieldDriver d))
/-- junction.hpp:1136-1139. -/
def setLayerCurrentDriver (j : Junction T) (id : String) (d : ScalarDriver T) : Out (Junction T) Unit :=
  j.layerSetter id (pureSetter (·.setCurrentDriver d))
/-- junction.hpp:1140-1143. -/
def setLayerDampingLikeTorqueDriver (j : Junction T) (id : String) (d : ScalarDriver T) :
    Out (Junction T) Unit := j.layerSetter id (·.setDampingLikeTorqueDriver d)
/-- junction.hpp:1144-1147. -/
def setLayerFieldLikeTorqueDriver (j : Junction T) (id : String) (d : ScalarDriver T) :
    Out (Junction T) Unit := j.layerSetter id (·.setFieldLikeTorqueDriver d)
/-- junction.hpp:1148-1151. -/
def setLayerReservedInteractionField (j : Junction T) (id : String) (d : AxialDriver T) :
    Out (Junction T) Unit := j.layerSetter id (pureSetter (·.setReservedInteractionField d))
/-- junction.hpp:1153-1156. -/
def setLayerHdmiDriver (j : Junction T) (id : String) (d : AxialDriver T) : Out (Junction T) Unit :=
  j.layerSetter id (pureSetter (·.setHdmiDriver d))
/-- junction.hpp:1224-1236. -/
def setLayerMagnetisation (j : Junction T) (id : String) (m : CVec T) : Out (Junction T) Unit :=
  j.layerSetter id (·.setMagnetisation m)

/-- junction.hpp:1266-1275, `getLayer`: the first layer with the id. -/
def getLayer (j : Junction T) (id : String) : Except Err (Layer T) :=
  match j.layers.find? (fun l => l.id == id) with
  | some l => .ok l
  | none => .error .layerNotFound

/-- Update of the first layer with the given id through the reference returned by `getLayer`. -/
def updateFirst (id : String) (f : Layer T → Out (Layer T) Unit) : List (Layer T) → Out (List (Layer T)) Unit
  | [] => .fail .layerNotFound []
  | l :: ls =>
    if l.id = id then
      match f l with
      | ⟨r, l'⟩ => ⟨r, l' :: ls⟩
    else
      match updateFirst id f ls with
      | ⟨r, ls'⟩ => ⟨r, l :: ls'⟩

/-- The shape of junction.hpp:1158-1166, 1168-1177, 1246-1254, 1256-1264: "all" visits every layer, any other
id goes through `getLayer`, i.e. only the first match. -/
def firstOrAll (j : Junction T) (id : String) (f : Layer T → Out (Layer T) Unit) : Out (Junction T) Unit :=
  if id = "all" then
    match Out.traverse (fun _ l => f l) 0 j.layers with
    | ⟨.error e, ls⟩ => .fail e { j with layers := ls }
    | ⟨.ok _, ls⟩ => .ok () { j with layers := ls }
  else
    match updateFirst id f j.layers with
    | ⟨r, ls⟩ => ⟨r, { j with layers := ls }⟩

/-- junction.hpp:1158-1166. -/
def setLayerAlternativeSTT (j : Junction T) (id : String) (b : Bool) : Out (Junction T) Unit :=
  j.firstOrAll id (pureSetter (·.setAlternativeSTT b))
/-- junction.hpp:1168-1177. -/
def setLayerOneFNoise (j : Junction T) (id : String) : Out (Junction T) Unit :=
  j.firstOrAll id (pureSetter (·.setOneFNoise))
/-- junction.hpp:1246-1254. -/
def setLayerReferenceLayer (j : Junction T) (id : String) (v : CVec T) : Out (Junction T) Unit :=
  j.firstOrAll id (pureSetter (·.setReferenceLayer v))
/-- junction.hpp:1256-1264. -/
def setLayerReferenceType (j : Junction T) (id : String) (r : Reference) : Out (Junction T) Unit :=
  j.firstOrAll id (·.setReferenceType r)

/-- junction.hpp:1238-1240. -/
def getLayerMagnetisation (j : Junction T) (id : String) : Except Err (CVec T) :=
  match j.getLayer id with
  | .ok l => .ok l.mag
  | .error e => .error e

/-- junction.hpp:1242-1244. -/
def getLayerReferenceType (j : Junction T) (id : String) : Except Err Reference :=
  match j.getLayer id with
  | .ok l => .ok l.referenceType
  | .error e => .error e

/-- junction.hpp:991-997. -/
def getLayerIds (j : Junction T) : List String := j.layers.map Layer.id

/-- The loop of junction.hpp:1055-1071 and 1091-1107: find the first adjacent pair with the two ids in either
order, set the lower layer's "top" and the upper layer's "bottom" driver. `none` means not found. -/
def couplePair (a b : String) (setTop setBottom : Layer T → Layer T) :
    List (Layer T) → Option (List (Layer T))
  | [] => none
  | [_] => none
  | l0 :: l1 :: ls =>
    if l0.id = a ∧ l1.id = b then some (setTop l0 :: setBottom l1 :: ls)
    else if l0.id = b ∧ l1.id = a then some (setTop l0 :: setBottom l1 :: ls)
    else (couplePair a b setTop setBottom (l1 :: ls)).map (l0 :: ·)

/-- junction.hpp:1050-1113, `setCouplingDriver`, `setCouplingDriverAxial`. -/
def coupling (j : Junction T) (a b : String) (setTop setBottom : Layer T → Layer T) : Out (Junction T) Unit :=
  match couplePair a b setTop setBottom j.layers with
  | some ls => .ok () { j with layers := ls }
  | none => .fail .pairNotFound j

/-- junction.hpp:1218-1222. -/
def setIECDriver (j : Junction T) (a b : String) (d : ScalarDriver T) : Out (Junction T) Unit :=
  j.coupling a b (·.setIECDriverTop d) (·.setIECDriverBottom d)
/-- junction.hpp:1203-1209. -/
def setQuadIECDriver (j : Junction T) (a b : String) (d : ScalarDriver T) : Out (Junction T) Unit :=
  j.coupling a b (·.setQuadIECDriverTop d) (·.setQuadIECDriverBottom d)
/-- junction.hpp:1188-1194. -/
def setIDMIDriver (j : Junction T) (a b : String) (d : AxialDriver T) : Out (Junction T) Unit :=
  j.coupling a b (·.setIDMIDriverTop d) (·.setIDMIDriverBottom d)

/-! ### Magnetoresistance, junction.hpp:1524-1578 -/

/-- junction.hpp:1554-1556. -/
def calculateMagnetoresistance (j : Junction T) (cosTheta : T) : T :=
  j.Rp + (((j.Rap - j.Rp) / 2.0) * (1.0 - cosTheta))

/-- One iteration of junction.hpp:1534-1543. Out-of-range reads are excluded by the constructor check. -/
def stripTerm (m : CVec T) (rx0 ry0 amrx smrx amry smry ahe : T) : T × T :=
  let Rx := rx0 + amrx * (m.x * m.x) + smrx * (m.y * m.y)
  let Ry := ry0 + 0.5 * ahe * m.z + (amry + smry) * m.x * m.y
  (1 / Rx, 1 / Ry)

/-- The loop of junction.hpp:1534-1543 over the layers and the seven parameter lists in parallel; a list that
is too short is an out-of-range read (`none`). -/
def stripLoop : List (Layer T) → List T → List T → List T → List T → List T → List T → List T →
    T → T → Option (T × T)
  | [], _, _, _, _, _, _, _, ax, ay => some (ax, ay)
  | l :: ls, rx :: rxs, ry :: rys, amx :: amxs, smx :: smxs, amy :: amys, smy :: smys, ah :: ahs, ax, ay =>
    let p := stripTerm l.mag rx ry amx smx amy smy ah
    stripLoop ls rxs rys amxs smxs amys smys ahs (ax + p.1) (ay + p.2)
  | _ :: _, _, _, _, _, _, _, _, _, _ => none

/-- junction.hpp:1524-1546, `stripMagnetoResistance`: three values. -/
def stripMagnetoResistance (j : Junction T) : Except Err (List T) :=
  match stripLoop j.layers j.Rx0 j.Ry0 j.AMR_X j.SMR_X j.AMR_Y j.SMR_Y j.AHE 0 0 with
  | some (ax, ay) => .ok [1 / ax, 1 / ay, 0]
  | none => .error .ub

/-- junction.hpp:1558-1578, `getMagnetoresistance`. -/
def getMagnetoresistance (j : Junction T) : Except Err (List T) :=
  match j.mrMode, j.layers with
  | .CLASSIC, [l0, l1] => .ok [j.calculateMagnetoresistance (l0.mag.dot l1.mag)]
  | .CLASSIC, [l0] => .ok [j.calculateMagnetoresistance (l0.mag.dot l0.referenceLayer)]
  | .STRIP, _ => j.stripMagnetoResistance
  | _, _ => .error .mrUnsupported

/-! ### Logging, junction.hpp:1285-1339 -/

/-- junction.hpp:1298-1314: the entries appended for component `i` ("x", "y" or "z") when energies are
logged. -/
def energyComponent (l : Layer T) (n : String) (get : CVec T → T) : List (String × T) :=
  [(l.id ++ "_Hext" ++ n, get l.cache.Hext), (l.id ++ "_Hiec" ++ n, get l.cache.HIEC),
   (l.id ++ "_Hanis" ++ n, get l.cache.HAnis), (l.id ++ "_Hdemag" ++ n, get l.cache.Hdemag),
   (l.id ++ "_Hth" ++ n, get l.cache.Hfluctuation)] ++
  (if l.includeSOT then
    [(l.id ++ "_Hfl" ++ n, get l.cache.Hfl_v), (l.id ++ "_Hdl" ++ n, get l.cache.Hdl_v)] else [])

/-- junction.hpp:1286-1321: everything appended for one layer, in order. With energies the current `_I` is
appended at 1297 and, for a layer with STT or SOT, once more at 1315-1316. -/
def layerEntries (l : Layer T) (energies : Bool) : List (String × T) :=
  (if energies then
    [(l.id ++ "_K", l.cache.K), (l.id ++ "_Jbottom", l.cache.Jbottom), (l.id ++ "_Jtop", l.cache.Jtop),
     (l.id ++ "_I", l.cache.I)] ++
    energyComponent l "x" CVec.x ++ energyComponent l "y" CVec.y ++ energyComponent l "z" CVec.z ++
    (if l.includeSTT || l.includeSOT then [(l.id ++ "_I", l.cache.I)] else [])
   else []) ++
  [(l.id ++ "_mx", l.mag.x), (l.id ++ "_my", l.mag.y), (l.id ++ "_mz", l.mag.z)]

/-- junction.hpp:1322-1336: the resistance entries. -/
def mrEntries (j : Junction T) : Except Err (List (String × T)) :=
  match j.mrMode, j.layers with
  | .CLASSIC, [l0] => .ok [("R", j.calculateMagnetoresistance (l0.mag.dot l0.referenceLayer))]
  | .CLASSIC, l0 :: l1 :: _ => .ok [(j.Rtag, j.calculateMagnetoresistance (l0.mag.dot l1.mag))]
  | .STRIP, _ =>
    match j.stripMagnetoResistance with
    | .ok (a :: b :: c :: _) => .ok [("Rx", a), ("Ry", b), ("Rz", c)]
    | .ok _ => .error .ub
    | .error e => .error e
  | _, _ => .ok []

/-- junction.hpp:1285-1339, `logLayerParams`. -/
def logLayerParams (j : Junction T) (t : T) (energies : Bool) : Out (Junction T) Unit :=
  let log := j.log.pushAll (j.layers.flatMap (layerEntries · energies))
  match j.mrEntries with
  | .error e => .fail e { j with log := log }
  | .ok mr =>
    .ok () { j with log := (log.pushAll mr).push "time" t, logLength := j.logLength + 1 }

/-- junction.hpp:1341-1359, `saveLogs`: the header and the rows written (cells as read from the columns; a
column shorter than `logLength` is an out-of-range read). -/
def saveLogs (j : Junction T) (filename : String) : Except Err (List String × List (List T)) :=
  if filename = "" then .error .emptyFilename
  else
    let row (i : Nat) : Option (List T) := j.log.mapM (fun kv => kv.2[i]?)
    match (List.range j.logLength).mapM row with
    | some rows => .ok (j.log.keys, rows)
    | none => .error .ub

/-! ### Steps -/

/-- junction.hpp:1374-1377, `runSingleLayerSolver` (the solver is always `rk4_step`, see `getSolver`). -/
def runSingleLayerSolver (j : Junction T) (t dt : T) : Out (Junction T) Unit :=
  match j.layers with
  | [] => .fail .ub j
  | l :: ls =>
    match l.rk4Step t dt .zero .zero with
    | ⟨r, l'⟩ => ⟨r, { j with layers := l' :: ls }⟩

/-- magnetisations of the layers with a zero vector below and above: `magCopies` of junction.hpp:1389-1393. -/
def magCopies (ls : List (Layer T)) : List (CVec T) := CVec.zero :: (ls.map Layer.mag) ++ [CVec.zero]

/-- junction.hpp:1387-1398, `runMultiLayerSolver`: neighbours are read from copies made before the first
layer is stepped. -/
def runMultiLayerSolver (j : Junction T) (t dt : T) : Out (Junction T) Unit :=
  let copies := magCopies j.layers
  match Out.traverse
      (fun i l => l.rk4Step t dt (copies.getD i .zero) (copies.getD (i + 2) .zero)) 0 j.layers with
  | ⟨.error e, ls⟩ => .fail e { j with layers := ls }
  | ⟨.ok _, ls⟩ => .ok () { j with layers := ls }

/-- Neighbour below layer `i` in a list of magnetisations: zero for the lowest layer
(junction.hpp:1418-1419, 1472-1473, 1490). -/
def below (ms : List (CVec T)) (i : Nat) : CVec T := if i = 0 then .zero else ms.getD (i - 1) .zero
/-- Neighbour above layer `i` (junction.hpp:1420-1421, 1474-1475, 1491-1492). -/
def above (ms : List (CVec T)) (i : Nat) : CVec T :=
  if i = ms.length - 1 then .zero else ms.getD (i + 1) .zero

/-- One iteration of the first loop of `eulerHeunSolverStep`, junction.hpp:1412-1438; the result is
`mPrime[i]`. The neighbours' magnetisations are read from `mags`; the loop body writes no magnetisation, so
they are the ones before the step. -/
def eulerHeunLayer (mags : List (CVec T)) (t dt : T) (i : Nat) (l : Layer T) : Out (Layer T) (CVec T) :=
  (l.langevinVector t).bind fun dW1 l =>
  (l.oneFVector).bind fun dW2 l =>
  let dW := dW1 + dW2
  let bottom := below mags i
  let top := above mags i
  (l.llg t l.mag bottom top).bind fun fn l =>
  let gn := l.stochasticTorque l.mag dW
  let mNext := l.mag + gn * Scalar.sqrt dt
  let gnPrime := l.stochasticTorque mNext dW
  .ok (l.mag + fn * dt + (0.5 : T) * (gn + gnPrime) * Scalar.sqrt dt) l

/-- junction.hpp:1440-1443: store and normalise. -/
def storeMags : List (Layer T) → List (CVec T) → List (Layer T)
  | l :: ls, m :: ms => l.setMag m.normalize :: storeMags ls ms
  | ls, _ => ls

/-- junction.hpp:1400-1444, `eulerHeunSolverStep`. -/
def eulerHeunSolverStep (j : Junction T) (t dt : T) : Out (Junction T) Unit :=
  let mags := j.layers.map Layer.mag
  match Out.traverse (eulerHeunLayer mags t dt) 0 j.layers with
  | ⟨.error e, ls⟩ => .fail e { j with layers := ls }
  | ⟨.ok mPrime, ls⟩ => .ok () { j with layers := storeMags ls mPrime }

/-- What the first loop of `heunSolverStep` keeps for a layer: `fn[i]`, `gn[i]`, `dW[i]`, `mNext[i]`. -/
structure HeunStage (T : Type) where
  fn : CVec T
  gn : CVec T
  dW : CVec T
  mNext : CVec T

/-- One iteration of the first loop, junction.hpp:1471-1487. -/
def heunPredict (mags : List (CVec T)) (t dt : T) (i : Nat) (l : Layer T) : Out (Layer T) (HeunStage T) :=
  (l.llg t l.mag (below mags i) (above mags i)).bind fun fn l =>
  (l.langevinVector t).bind fun dW1 l =>
  (l.oneFVector).bind fun dW2 l =>
  let dW := dW1 + dW2
  let gn := l.stochasticTorque l.mag dW
  .ok ⟨fn, gn, dW, l.mag + fn * dt + gn * Scalar.sqrt dt⟩ l

/-- One iteration of the second loop, junction.hpp:1489-1503. -/
def heunCorrect (stages : List (HeunStage T)) (t dt : T) (i : Nat) (l : Layer T) : Out (Layer T) Unit :=
  match stages[i]? with
  | none => .fail .ub l
  | some s =>
    let nexts := stages.map HeunStage.mNext
    (l.llg (t + dt) s.mNext (below nexts i) (above nexts i)).bind fun f2 l =>
    let m := l.mag + (0.5 * dt) * (s.fn + f2)
      + (0.5 : T) * (s.gn + l.stochasticTorque s.mNext s.dW) * Scalar.sqrt dt
    .ok () (l.setMag m.normalize)

/-- junction.hpp:1446-1504, `heunSolverStep`. -/
def heunSolverStep (j : Junction T) (t dt : T) : Out (Junction T) Unit :=
  let mags := j.layers.map Layer.mag
  match Out.traverse (heunPredict mags t dt) 0 j.layers with
  | ⟨.error e, ls⟩ => .fail e { j with layers := ls }
  | ⟨.ok stages, ls⟩ =>
    match Out.traverse (heunCorrect stages t dt) 0 ls with
    | ⟨.error e, ls⟩ => .fail e { j with layers := ls }
    | ⟨.ok _, ls⟩ => .ok () { j with layers := ls }

/-! ### Choice of solver, junction.hpp:1580-1619 -/

/-- The runner function pointer. The solver pointer is always `rk4_step`. -/
inductive Runner | single | multi | heun | eulerHeun
  deriving DecidableEq, Repr

/-- junction.hpp:1587-1592 and 1597-1602: modes other than Heun and Euler–Heun are replaced. -/
def noisyMode (m : SolverMode) : SolverMode :=
  if m ≠ .HEUN ∧ m ≠ .EULER_HEUN then .EULER_HEUN else m

/-- The loop of junction.hpp:1583-1606. -/
def solverLoop (totalIterations : Nat) (mode : SolverMode) : List (Layer T) → Out (List (Layer T)) SolverMode
  | [] => .ok mode []
  | l :: ls =>
    let mode := if l.temperatureSet then noisyMode mode else mode
    if Scalar.eqb l.noiseParams.scaleNoise 0 then
      match solverLoop totalIterations mode ls with
      | ⟨r, ls'⟩ => ⟨r, l :: ls'⟩
    else
      let mode := noisyMode mode
      match l.createBufferedAlphaNoise totalIterations with
      | ⟨.error e, l'⟩ => ⟨.error e, l' :: ls⟩
      | ⟨.ok _, l'⟩ =>
        match solverLoop totalIterations mode ls with
        | ⟨r, ls'⟩ => ⟨r, l' :: ls'⟩

/-- junction.hpp:1610-1616. -/
def pickRunner (n : Nat) (mode : SolverMode) : Runner :=
  if mode = .HEUN then .heun
  else if mode = .EULER_HEUN then .eulerHeun
  else if n = 1 then .single
  else .multi

/-- junction.hpp:1580-1619, `getSolver`. -/
def getSolver (j : Junction T) (mode : SolverMode) (totalIterations : Nat) :
    Out (Junction T) (Runner × SolverMode) :=
  match solverLoop totalIterations mode j.layers with
  | ⟨.error e, ls⟩ => .fail e { j with layers := ls }
  | ⟨.ok m, ls⟩ => .ok (pickRunner j.layerNo m, m) { j with layers := ls }

/-- Call through the runner pointer. -/
def runStep (j : Junction T) (r : Runner) (t dt : T) : Out (Junction T) Unit :=
  match r with
  | .single => j.runSingleLayerSolver t dt
  | .multi => j.runMultiLayerSolver t dt
  | .heun => j.heunSolverStep t dt
  | .eulerHeun => j.eulerHeunSolverStep t dt

/-- The loop of junction.hpp:1654-1661, from iteration `i` for `n` more iterations. -/
def runLoop (r : Runner) (dt : T) (writeEvery : Nat) (energies : Bool) :
    Nat → Nat → Junction T → Out (Junction T) Unit
  | _, 0, j => .ok () j
  | i, n + 1, j =>
    let t : T := Scalar.lit (i : ℚ) * dt
    (j.runStep r t dt).bind fun _ j =>
    if writeEvery = 0 then .fail .ub j
    else if i % writeEvery = 0 then
      (j.logLayerParams t energies).bind fun _ j => runLoop r dt writeEvery energies (i + 1) n j
    else runLoop r dt writeEvery energies (i + 1) n j

/-- junction.hpp:1636-1672, `runSimulation`. -/
def runSimulation (j : Junction T) (totalTime dt writeFrequency : T) (energies : Bool) (mode : SolverMode) :
    Out (Junction T) Unit :=
  if Scalar.ltb writeFrequency dt then .fail .timeStepTooLarge j
  else
    match Scalar.toUInt (totalTime / dt), Scalar.toUInt (writeFrequency / dt) with
    | some total, some every =>
      (j.getSolver mode total).bind fun rm j => runLoop rm.1 dt every energies 0 total j
    | _, _ => .fail .ub j

end Junction
