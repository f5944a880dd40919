import Verif.Model.CVector

/-!
# Model of `core/drivers.hpp`

`Driver` (29-61) and `ScalarDriver` (63-327) become one structure. `NullDriver` objects (329-333) are only
ever stored by value in `std::vector<ScalarDriver>` or passed as `ScalarDriver`, which slices them to a plain
`ScalarDriver` with its default arguments; `ScalarDriver.null` models the sliced value.
Not modelled: `ScalarDriver::getUnitAxis` (280-283), `AxialDriver::getConstantValues`/`getUnitAxis` (408-433).
-/

/-- drivers.hpp:17-27. -/
inductive UpdateType
  | constant | pulse | sine | step | posine | halfsine | trapezoid | gaussimpulse | gaussstep
  deriving DecidableEq, Repr

/-- drivers.hpp:29-34 (members of `Driver`) and 66-67 (`edgeTime`, `steadyTime`). -/
@[ext] structure ScalarDriver (T : Type) where
  update : UpdateType
  constantValue : T
  amplitude : T
  frequency : T
  phase : T
  period : T
  cycle : T
  timeStart : T
  timeStop : T
  edgeTime : T
  steadyTime : T

namespace ScalarDriver
variable {T : Type} [Scalar T]

/-- drivers.hpp:109-125, the constructor; throws for a pulse without period or cycle and for a sine without
frequency. (The default value -1 doubles as "not set".) -/
def mk' (update : UpdateType) (constantValue amplitude frequency phase period cycle timeStart timeStop
    edgeTime steadyTime : T) : Except Err (ScalarDriver T) :=
  let d : ScalarDriver T := ⟨update, constantValue, amplitude, frequency, phase, period, cycle, timeStart,
    timeStop, edgeTime, steadyTime⟩
  if update = .pulse ∧ (Scalar.eqb period (-1) || Scalar.eqb cycle (-1)) = true then .error .driverArgs
  else if update = .sine ∧ Scalar.eqb frequency (-1) = true then .error .driverArgs
  else .ok d

/-- drivers.hpp:132-134 (via the default arguments of 109-112). Never throws. -/
def constantDriver (c : T) : ScalarDriver T :=
  ⟨.constant, c, 0, -1, 0, -1, -1, -1, -1, -1, -1⟩

/-- drivers.hpp:329-333 sliced to `ScalarDriver`: all default arguments. -/
def null : ScalarDriver T := ⟨.constant, 0, 0, -1, 0, -1, -1, -1, -1, -1, -1⟩

/-- drivers.hpp:144-147. -/
def pulseDriver (c amplitude period cycle : T) : Except Err (ScalarDriver T) :=
  mk' .pulse c amplitude (-1) (-1) period cycle (-1) (-1) (-1) (-1)

/-- drivers.hpp:158-161. -/
def sineDriver (c amplitude frequency phase : T) : Except Err (ScalarDriver T) :=
  mk' .sine c amplitude frequency phase (-1) (-1) (-1) (-1) (-1) (-1)

/-- drivers.hpp:172-175. -/
def posSineDriver (c amplitude frequency phase : T) : Except Err (ScalarDriver T) :=
  mk' .posine c amplitude frequency phase (-1) (-1) (-1) (-1) (-1) (-1)

/-- drivers.hpp:177-180. -/
def halfSineDriver (c amplitude frequency phase : T) : Except Err (ScalarDriver T) :=
  mk' .halfsine c amplitude frequency phase (-1) (-1) (-1) (-1) (-1) (-1)

/-- drivers.hpp:189-196. -/
def stepDriver (c amplitude timeStart timeStop : T) : Except Err (ScalarDriver T) :=
  if Scalar.leb timeStop timeStart then .error .stepTimes
  else mk' .step c amplitude (-1) (-1) (-1) (-1) timeStart timeStop (-1) (-1)

/-- drivers.hpp:207-212. -/
def trapezoidDriver (c amplitude timeStart edgeTime steadyTime : T) : Except Err (ScalarDriver T) :=
  mk' .trapezoid c amplitude (-1) (-1) (-1) (-1) timeStart (-1) edgeTime steadyTime

/-- drivers.hpp:223-227. -/
def gaussianImpulseDriver (c amplitude t0 sigma : T) : Except Err (ScalarDriver T) :=
  mk' .gaussimpulse c amplitude (-1) (-1) (-1) (-1) t0 (-1) sigma (-1)

/-- drivers.hpp:238-242. The code passes `gaussimpulse`, not `gaussstep`. -/
def gaussianStepDriver (c amplitude t0 sigma : T) : Except Err (ScalarDriver T) :=
  mk' .gaussimpulse c amplitude (-1) (-1) (-1) (-1) t0 (-1) sigma (-1)

/-- drivers.hpp:70-76. -/
def stepUpdate (amplitude time timeStart timeStop : T) : T :=
  if Scalar.leb timeStart time && Scalar.leb time timeStop then amplitude else 0

/-- drivers.hpp:77-86. `static_cast<int>(time / period)` is undefined out of range: then the result is
arbitrary in C++; here it is `none`. -/
def pulseTrain? (amplitude time period cycle : T) : Option T :=
  match Scalar.toInt (time / period) with
  | none => none
  | some n =>
    let dT := cycle * period
    let nT := (Scalar.lit (n : ℚ) : T) * period
    if Scalar.leb nT time && Scalar.leb time (nT + dT) then some amplitude else some 0

/-- `pulseTrain?` where the undefined case is totalised to 0. Theorems about pulses are stated under the
condition that the cast is defined. -/
def pulseTrain (amplitude time period cycle : T) : T :=
  (pulseTrain? amplitude time period cycle).getD 0

/-- drivers.hpp:88-107. -/
def trapezoidalUpdate (amplitude time timeStart edgeTime steadyTime : T) : T :=
  if Scalar.ltb time timeStart then 0
  else if Scalar.leb time (timeStart + edgeTime) then (amplitude / edgeTime) * (time - timeStart)
  else if Scalar.leb time (timeStart + edgeTime + steadyTime) then amplitude
  else if Scalar.leb time (timeStart + 2 * edgeTime + steadyTime) then
    amplitude - (amplitude / edgeTime) * (time - (timeStart + edgeTime + steadyTime))
  else 0

/-- drivers.hpp:244-278, `getCurrentScalarValue`. -/
def value (d : ScalarDriver T) (time : T) : T :=
  match d.update with
  | .constant => d.constantValue
  | .pulse => d.constantValue + pulseTrain d.amplitude time d.period d.cycle
  | .sine => d.constantValue +
      d.amplitude * Scalar.sin (2 * Scalar.pi * time * d.frequency + d.phase)
  | .posine => d.constantValue +
      Scalar.abs (d.amplitude * Scalar.sin (2 * Scalar.pi * time * d.frequency + d.phase))
  | .halfsine =>
      let tamp := d.amplitude * Scalar.sin (2 * Scalar.pi * time * d.frequency + d.phase)
      if Scalar.leb tamp 0 then d.constantValue + tamp else d.constantValue
  | .step => d.constantValue + stepUpdate d.amplitude time d.timeStart d.timeStop
  | .trapezoid => d.constantValue +
      trapezoidalUpdate d.amplitude time d.timeStart d.edgeTime d.steadyTime
  | .gaussimpulse => d.constantValue +
      d.amplitude * Scalar.exp
        (-(Scalar.powi (time - d.timeStart) 2) / (2 * Scalar.powi d.edgeTime 2))
  | .gaussstep => d.constantValue +
      0.5 * d.amplitude *
        (1 + Scalar.erf ((time - d.timeStart) / (Scalar.sqrt 2 * d.edgeTime)))

/-- drivers.hpp:286-298 (`*`); it goes through the constructor, which may throw. -/
def mul (d : ScalarDriver T) (v : T) : Except Err (ScalarDriver T) :=
  mk' d.update (d.constantValue * v) (d.amplitude * v) d.frequency d.phase d.period d.cycle d.timeStart
    d.timeStop d.edgeTime d.steadyTime

/-- drivers.hpp:301-305 (`*=`), in place. -/
def mulAssign (d : ScalarDriver T) (v : T) : ScalarDriver T :=
  { d with constantValue := d.constantValue * v, amplitude := d.amplitude * v }

/-- drivers.hpp:308-321 (`+`); adds to the offset *and* to the amplitude. -/
def add (d : ScalarDriver T) (v : T) : Except Err (ScalarDriver T) :=
  mk' d.update (d.constantValue + v) (d.amplitude + v) d.frequency d.phase d.period d.cycle d.timeStart
    d.timeStop d.edgeTime d.steadyTime

/-- drivers.hpp:322-326 (`+=`), in place. -/
def addAssign (d : ScalarDriver T) (v : T) : ScalarDriver T :=
  { d with constantValue := d.constantValue + v, amplitude := d.amplitude + v }

/-- drivers.hpp:58, `setConstantValue`. -/
def setConstantValue (d : ScalarDriver T) (v : T) : ScalarDriver T := { d with constantValue := v }

/-- drivers.hpp:60, `phaseShift`. -/
def phaseShift (d : ScalarDriver T) (p : T) : ScalarDriver T := { d with phase := d.phase + p }

end ScalarDriver

/-- drivers.hpp:335-337: three scalar drivers. (The `std::vector` always has length 3: every constructor
fixes it.) The unused `Driver` base part is left out. -/
@[ext] structure AxialDriver (T : Type) where
  dx : ScalarDriver T
  dy : ScalarDriver T
  dz : ScalarDriver T

namespace AxialDriver
variable {T : Type} [Scalar T]

/-- drivers.hpp:362-364, default constructor. -/
def null : AxialDriver T := ⟨.null, .null, .null⟩

/-- drivers.hpp:370-373 and 340-342. -/
def ofVec (v : CVec T) : AxialDriver T :=
  ⟨.constantDriver v.x, .constantDriver v.y, .constantDriver v.z⟩

/-- drivers.hpp:375-378. -/
def ofScalars (x y z : T) : AxialDriver T :=
  ⟨.constantDriver x, .constantDriver y, .constantDriver z⟩

/-- drivers.hpp:380-385. -/
def ofList (l : List (ScalarDriver T)) : Except Err (AxialDriver T) :=
  match l with
  | [a, b, c] => .ok ⟨a, b, c⟩
  | _ => .error .axialLength

/-- drivers.hpp:387-401. -/
def uniAxial (d : ScalarDriver T) (axis : Axis) : AxialDriver T :=
  match axis with
  | .xaxis => ⟨d, .null, .null⟩
  | .yaxis => ⟨.null, d, .null⟩
  | .zaxis => ⟨.null, .null, d⟩
  | .all => ⟨d, d, d⟩
  | .none => ⟨.null, .null, .null⟩

/-- drivers.hpp:402-406. -/
def value (d : AxialDriver T) (time : T) : CVec T :=
  ⟨d.dx.value time, d.dy.value time, d.dz.value time⟩

/-- One iteration of the loop of drivers.hpp:346-355 on one component: `none` means the throw. -/
def maskOne (m : Nat) (d : ScalarDriver T) : Option (ScalarDriver T) :=
  if m = 0 then some .null else if m ≠ 1 then none else some d

/-- drivers.hpp:344-356, `applyMask` with a 3-entry mask (an `assert` guards the length). Returns the
outcome and the driver as it is left, also when it throws half way. -/
def applyMask (d : AxialDriver T) (m0 m1 m2 : Nat) : Except Err Unit × AxialDriver T :=
  match maskOne m0 d.dx with
  | none => (.error .badMask, d)
  | some dx =>
    let d := { d with dx := dx }
    match maskOne m1 d.dy with
    | none => (.error .badMask, d)
    | some dy =>
      let d := { d with dy := dy }
      match maskOne m2 d.dz with
      | none => (.error .badMask, d)
      | some dz => (.ok (), { d with dz := dz })

/-- drivers.hpp:357-360, mask given as a vector of scalars: each is cast to `unsigned` first. -/
def applyMaskVec (d : AxialDriver T) (m : CVec T) : Except Err Unit × AxialDriver T :=
  match Scalar.toUInt m.x, Scalar.toUInt m.y, Scalar.toUInt m.z with
  | some a, some b, some c => d.applyMask a b c
  | _, _, _ => (.error .ub, d)

end AxialDriver
