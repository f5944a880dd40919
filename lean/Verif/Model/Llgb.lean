import Verif.Model.Stack

/-!
# Model of `core/llgb.hpp`

Simplifications:
* `timeStep` arguments that are never read are dropped; `getAnisotropyField` (140-143) and `stochasticTorqueOld` (220-238) are
  called by nothing and left out.
* `alpha_perp_log`, `alpha_par_log` start uninitialised (70); the model starts them at 0. Every step writes both before a row
  is logged.
* The two normal generators are streams with a read position.
* No function of a layer throws, so a call on a layer is a pair of the result and the layer as the call leaves it.
* `layerNo` is the number of layers; no method changes the list of layers.
-/

namespace LLGB
variable {T : Type} [Scalar T]

/-- llgb.hpp:7-9, `langevin`. -/
def langevin (x : T) : T := 1.0 / Scalar.tanh x - 1.0 / x

/-- llgb.hpp:11-13, `langevinDerivative`. -/
def langevinDerivative (x : T) : T := -(1.0 : T) / Scalar.powi (Scalar.sinh x) 2 + 1 / Scalar.powi x 2

/-- The loop of llgb.hpp:35-42 for `n` more iterations, with the current `est` and `err`. `abs` is the overload for
floating point numbers (drivers.hpp:9 includes `stdlib.h`). -/
def weissLoop (beta J0 relax tol : T) : Nat → T → T → T × T
  | 0, est, err => (est, err)
  | n + 1, est, _ =>
    let xNext := langevin (beta * J0 * est)
    let err := Scalar.abs (xNext - est)
    if Scalar.ltb err tol then (xNext, err)
    else weissLoop beta J0 relax tol n (relax * xNext + (1 - relax) * est) err

/-- llgb.hpp:15-44, `MFAWeissCurie`. -/
def MFAWeissCurie (est temp J0 relax tol : T) (maxIter : Nat) : T × T :=
  weissLoop (1.0 / (Const.boltzmann * temp)) J0 relax tol maxIter est 0

end LLGB

/-- llgb.hpp:47-72, class `LLGBLayer`. -/
structure LLGBLayer (T : Type) where
  temperatureDriver : ScalarDriver T
  anisotropyDriver : ScalarDriver T
  externalFieldDriver : AxialDriver T
  id : String
  mag : CVec T
  anis : CVec T
  Ms : T
  thickness : T
  surface : T
  volume : T
  demagTensor : List (CVec T)
  damping : T
  Tc : T
  susceptibility : T
  me : T
  alphaPerpLog : T
  alphaParLog : T
  KLog : T
  TLog : T
  /-- draws of `distributionA` and `distributionB` and the positions reached -/
  gaussA : Nat → T
  posA : Nat
  gaussB : Nat → T
  posB : Nat

namespace LLGBLayer
variable {T : Type} [Scalar T]

/-- llgb.hpp:86-104, the constructor. -/
def mk' (id : String) (mag anis : CVec T) (Ms thickness surface : T) (demagTensor : List (CVec T)) (damping Tc
    susceptibility me : T) (gaussA gaussB : Nat → T) : Except Err (LLGBLayer T) :=
  let volume := surface * thickness
  if Scalar.eqb volume 0 then .error .zeroVolume
  else if Scalar.eqb mag.length 0 then .error .zeroMag
  else if Scalar.eqb anis.length 0 then .error .zeroAnis
  else .ok {
    temperatureDriver := .null, anisotropyDriver := .null, externalFieldDriver := .null,
    id := id, mag := mag, anis := anis, Ms := Ms, thickness := thickness, surface := surface, volume := volume,
    demagTensor := demagTensor, damping := damping, Tc := Tc, susceptibility := susceptibility, me := me,
    alphaPerpLog := 0, alphaParLog := 0, KLog := 0, TLog := 0, gaussA := gaussA, posA := 0, gaussB := gaussB, posB := 0 }

/-- llgb.hpp:106-110, `getAlphaParallel`. -/
def getAlphaParallel (l : LLGBLayer T) (time : T) : T × LLGBLayer T :=
  let temp := l.temperatureDriver.value time
  let a := l.damping * (temp / l.Tc) * (2 / 3)
  (a, { l with alphaParLog := a })

/-- llgb.hpp:112-121, `getAlphaPerpendicular`. -/
def getAlphaPerpendicular (l : LLGBLayer T) (time : T) : T × LLGBLayer T :=
  let temp := l.temperatureDriver.value time
  let ratio := temp / l.Tc
  let a := if Scalar.leb l.Tc temp then l.damping * ratio * (2 / 3) else l.damping * (1 - ratio * (1 / 3.0))
  (a, { l with alphaPerpLog := a })

/-- llgb.hpp:123-138, `getLongitudinal`. -/
def getLongitudinal (l : LLGBLayer T) (time : T) (m : CVec T) : CVec T :=
  let temp := l.temperatureDriver.value time
  let ratioSusc := 1 / (2 * l.susceptibility)
  let m2 := Scalar.powi m.length 2
  if Scalar.leb temp l.Tc then
    let ratioM := m2 / Scalar.powi l.me 2
    ratioSusc * (1 - ratioM) * m
  else
    let ratioAlt := 1 + 3 / 5 * (l.Tc / (temp - l.Tc)) * m2
    (-(1 / l.susceptibility)) * ratioAlt * m

/-- llgb.hpp:145-149, `calculateAnisotropy`. -/
def calculateAnisotropy (l : LLGBLayer T) (m : CVec T) (time : T) : CVec T × LLGBLayer T :=
  let K := l.anisotropyDriver.value time
  let nom := K * l.anis.dot m
  (l.anis * nom, { l with KLog := K })

/-- llgb.hpp:151-159, `calculateHeff`. -/
def calculateHeff (l : LLGBLayer T) (time : T) (m : CVec T) : CVec T × LLGBLayer T :=
  let a := l.calculateAnisotropy m time
  let l := a.2
  let hext := l.externalFieldDriver.value time
  let longField := l.getLongitudinal time m
  (a.1 + hext + longField, l)

/-- llgb.hpp:167-179, `solveLLG`. -/
def solveLLG (l : LLGBLayer T) (time : T) (m heff : CVec T) : CVec T × LLGBLayer T :=
  let l := { l with TLog := l.temperatureDriver.value time }
  let mxh := m.cross heff
  let mxmxh := m.cross mxh
  let llbTerm := m.dot heff * m
  let invMlen := Scalar.powi (1 / m.length) 2
  let gammaP := Const.gyro / (1 + Scalar.powi l.damping 2)
  let aPerp := l.getAlphaPerpendicular time
  let l := aPerp.2
  let aPar := l.getAlphaParallel time
  let l := aPar.2
  let dmdt := (-1 : T) * mxh - aPerp.1 * mxmxh * invMlen + llbTerm * aPar.1 * invMlen
  (gammaP * dmdt, l)

/-- llgb.hpp:161-165, `calculateLLG`. -/
def calculateLLG (l : LLGBLayer T) (time : T) (m : CVec T) : CVec T × LLGBLayer T :=
  let h := l.calculateHeff time m
  h.2.solveLLG time m h.1

/-- llgb.hpp:181-189, `nonadiabaticThermalField`: the field is multiplied by zero. -/
def nonadiabaticThermalField (l : LLGBLayer T) (time : T) : CVec T × LLGBLayer T :=
  let temp := l.temperatureDriver.value time
  let aPerp := l.getAlphaPerpendicular time
  let l := aPerp.2
  let aPar := l.getAlphaParallel time
  let l := aPar.2
  let varianceDev := (2 * Const.boltzmann * temp * (aPerp.1 - aPar.1)) /
    (l.volume * l.Ms * Const.gyro * Scalar.powi aPerp.1 2)
  let d := CVec.ofStream l.gaussA l.posA
  ((0 * Scalar.sqrt varianceDev) * d.1, { l with posA := d.2 })

/-- llgb.hpp:191-198, `adiabaticThermalField`: the field is multiplied by zero. -/
def adiabaticThermalField (l : LLGBLayer T) (time : T) : CVec T × LLGBLayer T :=
  let temp := l.temperatureDriver.value time
  let aPar := l.getAlphaParallel time
  let l := aPar.2
  let varianceDev := (2 * Const.boltzmann * temp * aPar.1) / (Const.gyro * l.volume * l.Ms)
  let d := CVec.ofStream l.gaussB l.posB
  ((0 * Scalar.sqrt varianceDev) * d.1, { l with posB := d.2 })

/-- llgb.hpp:200-218, `stochasticTorque`. -/
def stochasticTorque (l : LLGBLayer T) (m : CVec T) (time : T) (nonAdiabatic adiabatic : CVec T) : CVec T × LLGBLayer T :=
  let invMlen := Scalar.powi (1 / m.length) 2
  let gammaP := Const.gyro / (1 + Scalar.powi l.damping 2)
  let nonAdiabaticTerm := m.cross (m.cross nonAdiabatic)
  let aPerp := l.getAlphaPerpendicular time
  let l := aPerp.2
  (-gammaP * invMlen * aPerp.1 * nonAdiabaticTerm + gammaP * adiabatic, l)

/-- llgb.hpp:242. -/
def setEquilibriumMagnetisation (l : LLGBLayer T) (me : T) : LLGBLayer T := { l with me := me }
/-- llgb.hpp:244-246. -/
def setSusceptibility (l : LLGBLayer T) (s : T) : LLGBLayer T := { l with susceptibility := s }
/-- llgb.hpp:248-250. -/
def setTemperatureDriver (l : LLGBLayer T) (d : ScalarDriver T) : LLGBLayer T := { l with temperatureDriver := d }
/-- llgb.hpp:252-254. -/
def setExternalFieldDriver (l : LLGBLayer T) (d : AxialDriver T) : LLGBLayer T := { l with externalFieldDriver := d }
/-- llgb.hpp:256-258. -/
def setAnisotropyDriver (l : LLGBLayer T) (d : ScalarDriver T) : LLGBLayer T := { l with anisotropyDriver := d }

end LLGBLayer

/-- llgb.hpp:261-269, class `LLGBJunction`. -/
structure LLGBJunction (T : Type) where
  layers : List (LLGBLayer T)
  log : Log T
  logLength : Nat
  time : T

namespace LLGBJunction
variable {T : Type} [Scalar T]

/-- llgb.hpp:272-275, the constructor. -/
def mk' (layers : List (LLGBLayer T)) : LLGBJunction T := ⟨layers, [], 0, 0⟩

/-- llgb.hpp:280-293 (`scalarlayerSetter`), 294-307 (`axiallayerSetter`), 320-333, 335-348: the four loops have the same
shape. -/
def layerSetter (j : LLGBJunction T) (layerID : String) (f : LLGBLayer T → LLGBLayer T) : Out (LLGBJunction T) Unit :=
  let hit := fun l : LLGBLayer T => decide (l.id = layerID ∨ layerID = "all")
  let j' := { j with layers := j.layers.map fun l => if hit l then f l else l }
  if j.layers.any hit then .ok () j' else .fail .layerNotFound j'

/-- llgb.hpp:308-311. -/
def setLayerTemperatureDriver (j : LLGBJunction T) (id : String) (d : ScalarDriver T) : Out (LLGBJunction T) Unit :=
  j.layerSetter id (·.setTemperatureDriver d)
/-- llgb.hpp:312-315. -/
def setLayerExternalFieldDriver (j : LLGBJunction T) (id : String) (d : AxialDriver T) : Out (LLGBJunction T) Unit :=
  j.layerSetter id (·.setExternalFieldDriver d)
/-- llgb.hpp:316-319. -/
def setLayerAnisotropyDriver (j : LLGBJunction T) (id : String) (d : ScalarDriver T) : Out (LLGBJunction T) Unit :=
  j.layerSetter id (·.setAnisotropyDriver d)
/-- llgb.hpp:320-333. -/
def setLayerEquilibriumMagnetisation (j : LLGBJunction T) (id : String) (me : T) : Out (LLGBJunction T) Unit :=
  j.layerSetter id (·.setEquilibriumMagnetisation me)
/-- llgb.hpp:335-348. -/
def setLayerSusceptibility (j : LLGBJunction T) (id : String) (s : T) : Out (LLGBJunction T) Unit :=
  j.layerSetter id (·.setSusceptibility s)

/-- What the first loop of `heunSolverStep` keeps for a layer. -/
structure Stage (T : Type) where
  fn : CVec T
  gn : CVec T
  nonAdiabatic : CVec T
  adiabatic : CVec T
  mNext : CVec T

/-- One iteration of the first loop, llgb.hpp:376-387. -/
def heunPredict (t dt : T) (l : LLGBLayer T) : Stage T × LLGBLayer T :=
  let f := l.calculateLLG t l.mag
  let l := f.2
  let na := l.nonadiabaticThermalField t
  let l := na.2
  let ad := l.adiabaticThermalField t
  let l := ad.2
  let g := l.stochasticTorque l.mag t na.1 ad.1
  let l := g.2
  (⟨f.1, g.1, na.1, ad.1, l.mag + f.1 * dt + g.1 * Scalar.sqrt dt⟩, l)

/-- One iteration of the second loop, llgb.hpp:389-403. -/
def heunCorrect (t dt : T) (s : Stage T) (l : LLGBLayer T) : LLGBLayer T :=
  let f := l.calculateLLG (t + dt) s.mNext
  let l := f.2
  let g := l.stochasticTorque s.mNext (t + dt) s.nonAdiabatic s.adiabatic
  let l := g.2
  { l with mag := l.mag + (0.5 * dt) * (s.fn + f.1) + (0.5 : T) * (s.gn + g.1) * Scalar.sqrt dt }

/-- llgb.hpp:350-404, `heunSolverStep`: a loop of predictions, then a loop of corrections. The layers do not interact. -/
def heunSolverStep (j : LLGBJunction T) (t dt : T) : LLGBJunction T :=
  let ps := j.layers.map (heunPredict t dt)
  { j with layers := ps.map fun p => heunCorrect t dt p.1 p.2 }

/-- One iteration of the first loop of `eulerHeunSolverStep`, llgb.hpp:417-440; the result is `mPrime[i]`. -/
def eulerHeunLayer (t dt : T) (l : LLGBLayer T) : CVec T × LLGBLayer T :=
  let na := l.nonadiabaticThermalField t
  let l := na.2
  let ad := l.adiabaticThermalField t
  let l := ad.2
  let f := l.calculateLLG t l.mag
  let l := f.2
  let g := l.stochasticTorque l.mag t na.1 ad.1
  let l := g.2
  let mNext := l.mag + g.1 * Scalar.sqrt dt
  let g' := l.stochasticTorque mNext (t + dt) na.1 ad.1
  let l := g'.2
  (l.mag + f.1 * dt + (0.5 : T) * (g.1 + g'.1) * Scalar.sqrt dt, l)

/-- llgb.hpp:405-446, `eulerHeunSolverStep`: compute all new magnetisations, then store them. -/
def eulerHeunSolverStep (j : LLGBJunction T) (t dt : T) : LLGBJunction T :=
  let ps := j.layers.map (eulerHeunLayer t dt)
  { j with layers := ps.map fun p => { p.2 with mag := p.1 } }

/-- The two runners of llgb.hpp:448-458. -/
inductive Runner | heun | eulerHeun
  deriving DecidableEq, Repr

/-- llgb.hpp:449-458, `getSolver`. -/
def getSolver (mode : SolverMode) : Except Err Runner :=
  if mode = .HEUN then .ok .heun
  else if mode = .EULER_HEUN then .ok .eulerHeun
  else .error .badSolver

/-- `(*this.*runner)(time, timeStep)`, llgb.hpp:548. -/
def runStep (j : LLGBJunction T) (r : Runner) (t dt : T) : LLGBJunction T :=
  match r with
  | .heun => j.heunSolverStep t dt
  | .eulerHeun => j.eulerHeunSolverStep t dt

/-- The entries of a layer, llgb.hpp:469-482. -/
def layerEntries (l : LLGBLayer T) : List (String × T) :=
  [(l.id ++ "_mx", l.mag.x), (l.id ++ "_my", l.mag.y), (l.id ++ "_mz", l.mag.z),
   (l.id ++ "_alpha_parallel", l.alphaParLog), (l.id ++ "_alpha_perpendicular", l.alphaPerpLog), (l.id ++ "_K", l.KLog),
   (l.id ++ "_T", l.TLog), (l.id ++ "_me", l.me), (l.id ++ "_Xpar", l.susceptibility)]

/-- llgb.hpp:468-485, `logLayerParams`. -/
def logLayerParams (j : LLGBJunction T) (t : T) : LLGBJunction T :=
  { j with log := j.log.pushAll (j.layers.flatMap layerEntries ++ [("time", t)]), logLength := j.logLength + 1 }

/-- llgb.hpp:487-505, `saveLogs`: the header and the rows written (a column shorter than `logLength` is an out-of-range
read). -/
def saveLogs (j : LLGBJunction T) (filename : String) : Except Err (List String × List (List T)) :=
  if filename = "" then .error .emptyFilename
  else
    match (List.range j.logLength).mapM fun i => j.log.mapM fun kv => kv.2[i]? with
    | some rows => .ok (j.log.keys, rows)
    | none => .error .ub

/-- llgb.hpp:510-514, `clearLog`: also resets the clock. -/
def clearLog (j : LLGBJunction T) : LLGBJunction T := { j with log := [], logLength := 0, time := 0 }

/-- The loop of llgb.hpp:546-553, from iteration `i` for `n` more. -/
def loop (r : Runner) (dt : T) (writeEvery : Nat) : Nat → Nat → LLGBJunction T → Out (LLGBJunction T) Unit
  | _, 0, j => .ok () j
  | i, n + 1, j =>
    let j := { j with time := j.time + dt }
    let j := j.runStep r j.time dt
    if writeEvery = 0 then .fail .ub j
    else if i % writeEvery = 0 then loop r dt writeEvery (i + 1) n (j.logLayerParams j.time)
    else loop r dt writeEvery (i + 1) n j

/-- llgb.hpp:531-564, `runSimulation`. -/
def runSimulation (j : LLGBJunction T) (totalTime dt writeFrequency : T) (mode : SolverMode) : Out (LLGBJunction T) Unit :=
  if Scalar.ltb writeFrequency dt then .fail .timeStepTooLarge j
  else
    match Stack.castUnsigned (totalTime / dt), Stack.castUnsigned (writeFrequency / dt) with
    | some total, some every =>
      match getSolver mode with
      | .error e => .fail e j
      | .ok r => loop r dt every 0 total j
    | _, _ => .fail .ub j

end LLGBJunction
