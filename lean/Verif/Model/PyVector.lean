import Verif.Model.CVector

/-!
# Model of `cmtj/utils/general.py` and `cmtj/utils/linear.py`

Simplifications:
* Python numbers are scalars `T`; `math.acos` of a value outside [-1, 1] (a `ValueError`, which rounding can produce) is the value
  of `acos`.
* An array of field vectors (shape `(n, 3)`) is a list of vectors; numpy's elementwise operations are maps over the list.
* `__repr__` and `__hash__` are in `Model/PyCache`.
-/

/-- general.py:10-22, class `VectorObj`. -/
@[ext] structure VectorObj (T : Type) where
  theta : T
  phi : T
  mag : T

namespace VectorObj
variable {T : Type} [Scalar T]

/-- general.py:60-67, `from_spherical`. -/
def fromSpherical (theta phi mag : T) : CVec T :=
  ⟨mag * Scalar.sin theta * Scalar.cos phi, mag * Scalar.sin theta * Scalar.sin phi, mag * Scalar.cos theta⟩

/-- general.py:56-58, `get_cartesian`. -/
def getCartesian (v : VectorObj T) : CVec T := fromSpherical v.theta v.phi v.mag

/-- general.py:69-77, `from_cartesian`. -/
def fromCartesian (x y z : T) : VectorObj T :=
  let mag := Scalar.sqrt (Scalar.powi x 2 + Scalar.powi y 2 + Scalar.powi z 2)
  if Scalar.eqb mag 0 then ⟨0, 0, 0⟩
  else
    let theta := Scalar.acos (z / mag)
    let phi := Scalar.atan2 y x
    ⟨theta, phi, mag⟩

/-- general.py:79-87, `from_cvector`. -/
def fromCVector (v : CVec T) : VectorObj T :=
  let mag := v.length
  if Scalar.eqb mag 0 then ⟨0, 0, 0⟩
  else
    let theta := Scalar.acos (v.z / mag)
    let phi := Scalar.atan2 v.y v.x
    ⟨theta, phi, mag⟩

/-- general.py:89-91, `to_cvector`. -/
def toCVector (v : VectorObj T) : CVec T := v.getCartesian

/-- general.py:24-26, `__add__`. -/
def add (a b : VectorObj T) : VectorObj T := fromCVector (a.toCVector + b.toCVector)

/-- general.py:47-54, `_componentwise_mul`. -/
def componentwiseMul (a b : VectorObj T) : VectorObj T :=
  let c := a.getCartesian
  let d := b.getCartesian
  fromCartesian (c.x * d.x) (c.y * d.y) (c.z * d.z)

/-- general.py:28-36, `__mul__` and `__rmul__` with a number. -/
def scale (a : VectorObj T) (s : T) : VectorObj T := fromCVector (a.toCVector * s)

/-- general.py:28-32, `__mul__` with a vector. -/
def mul (a b : VectorObj T) : VectorObj T := a.componentwiseMul b

/-- general.py:44-45, `__eq__`. -/
def eqb (a b : VectorObj T) : Bool := Scalar.eqb a.theta b.theta && Scalar.eqb a.phi b.phi && Scalar.eqb a.mag b.mag

end VectorObj

namespace PyGeneral
variable {T : Type} [Scalar T]

/-- general.py:94-107, `box_muller_random` with the two uniform draws `u1`, `u2`; `math.log(0)` raises. -/
def boxMuller (mean std u1 u2 : T) : Except Err (T × T) :=
  if Scalar.leb u1 0 then .error .valueError
  else
    let mag := std * Scalar.sqrt (-2.0 * Scalar.log u1)
    let z0 := mag * Scalar.cos (2 * Scalar.pi * u2) + mean
    let z1 := mag * Scalar.sin (2 * Scalar.pi * u2) + mean
    .ok (z0, z1)

/-- numpy's `linspace(start, stop, num)` (end point included): equal steps, the last value set to `stop`. -/
def linspace (start stop : T) (num : Nat) : List T :=
  if num = 1 then [start]
  else
    let step := (stop - start) / Scalar.lit ((num - 1 : Nat) : ℚ)
    (List.range num).map fun i => if i + 1 = num then stop else Scalar.lit (i : ℚ) * step + start

/-- numpy's `deg2rad`. -/
def deg2rad (x : T) : T := x * (Scalar.pi / 180)
/-- numpy's `rad2deg`. -/
def rad2deg (x : T) : T := x * (180 / Scalar.pi)

end PyGeneral

namespace FieldScan
variable {T : Type} [Scalar T]
open PyGeneral

/-- linear.py:7-17, `_trig_compute` for one pair of angles: st, ct, sp, cp. -/
def trigCompute (theta phi : T) : T × T × T × T :=
  (Scalar.sin (deg2rad theta), Scalar.cos (deg2rad theta), Scalar.sin (deg2rad phi), Scalar.cos (deg2rad phi))

/-- linear.py:19-31, `angle2vector`. -/
def angle2vector (theta phi amplitude : T) : CVec T :=
  let (st, ct, sp, cp) := trigCompute theta phi
  ⟨st * cp * amplitude, st * sp * amplitude, ct * amplitude⟩

/-- linear.py:33-45, `vector2angle`: (theta, phi, r). -/
def vector2angle (x y z : T) : T × T × T :=
  let r := Scalar.sqrt (Scalar.powi x 2 + Scalar.powi y 2 + Scalar.powi z 2)
  let theta := rad2deg (Scalar.atan2 (Scalar.sqrt (Scalar.powi x 2 + Scalar.powi y 2)) z)
  let phi := rad2deg (Scalar.atan2 y x)
  (theta, phi, r)

/-- linear.py:47-54, `cvector2angle`. -/
def cvector2angle (v : CVec T) : T × T × T := vector2angle v.x v.y v.z

/-- linear.py:56-84, `amplitude_scan`. -/
def amplitudeScan (start stop : T) (steps : Nat) (theta phi : T) (back : Bool) : List T × List (CVec T) :=
  let span := linspace start stop steps
  let (st, ct, sp, cp) := trigCompute theta phi
  let forward := span.map fun h => (⟨st * cp * h, st * sp * h, ct * h⟩ : CVec T)
  if back then (span.dropLast ++ span.reverse, forward.dropLast ++ forward.reverse)
  else (span, forward)

/-- linear.py:86-103, `theta_scan`. -/
def thetaScan (start stop : T) (steps : Nat) (amplitude phi : T) : List T × List (CVec T) :=
  let span := linspace start stop steps
  (span, span.map fun theta =>
    let (st, ct, sp, cp) := trigCompute theta phi
    ⟨st * cp * amplitude, st * sp * amplitude, ct * amplitude⟩)

/-- linear.py:105-122, `phi_scan` (`ct * amplitude` is multiplied by an array of ones). -/
def phiScan (start stop : T) (steps : Nat) (amplitude theta : T) : List T × List (CVec T) :=
  let span := linspace start stop steps
  (span, span.map fun phi =>
    let (st, ct, sp, cp) := trigCompute theta phi
    ⟨st * cp * amplitude, st * sp * amplitude, ct * amplitude * 1⟩)

end FieldScan
