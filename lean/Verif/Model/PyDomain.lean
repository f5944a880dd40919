import Verif.Model.PyVector

/-!
# Model of `cmtj/models/domain_dynamics.py`

Simplifications:
* Numbers are scalars; division by zero inside the right-hand side is the division of `T` (the constructor's divisions and square
  root are checked).
* scipy's RK45 is outside the model: `run` gets the sequence of its steps, each with the values the code reads from the integrator
  (`t`, `y`, `t_old`, `y_old`, `status`).
* A vector component is read with a default (`get`): the vector is as long as the code needs, three numbers per layer.
* The result dictionary is one record of columns per layer.
-/

namespace Domain
variable {T : Type} [Scalar T]

/-- utils/__init__.py:24. -/
def gyro : T := Scalar.lit 221100
/-- utils/__init__.py:21. -/
def mu0 : T := 12.566e-7
/-- utils/__init__.py:20. -/
def echarge : T := -1.602e-19
/-- utils/__init__.py:22-23. -/
def hbar : T := 6.6260e-34 / (2 * Scalar.pi)
/-- utils/__init__.py:27-28. -/
def bohrMagneton : T := echarge * hbar / (2 * 9.109e-31)

/-- domain_dynamics.py:31-36, `get_pinning_field`. -/
def pinningField (X Ms pinning Ly Lz V0 : T) : T :=
  let arg := X * Scalar.pi / pinning
  let dVdx := 2 * Scalar.pi * V0 * Scalar.sin arg * Scalar.cos arg
  let denom := 2 * mu0 * Ms * Lz * Ly
  let h := -(1.0 / denom) * dVdx
  h

/-- domain_dynamics.py:39-44, `get_edge_field`. -/
def edgeField (X Lx V0 : T) : T :=
  let c := Lx / 2
  let arg := (X - Lx / 2) / c
  let h := -6 * V0 * (Scalar.sinh arg * Scalar.powi (Scalar.cosh arg) 5 / c)
  h

/-- domain_dynamics.py:47-52, `get_field_contribution`. No function of the library calls it. -/
def fieldContribution (X phi hx hy hz alpha dw Ms V0 pinning Ly Lz : T) : T × T :=
  let pi2 := Scalar.pi / 2.0
  let pin := pinningField X Ms pinning Ly Lz V0
  (alpha * gyro * dw * (hz + pin) + gyro * dw * pi2 * (-hy * Scalar.cos phi + hx * Scalar.sin phi),
    gyro * (hz + pin) + alpha * gyro * pi2 * (hy * Scalar.cos phi - hx * Scalar.sin phi))

/-- domain_dynamics.py:55-66, `compute_gamma_a`. -/
def gammaA (phi Q dw hk hx hy hdmi bj iec : T) : T :=
  let pi2 := Scalar.pi / 2.0
  let fact := -0.5 * hk * Scalar.sin (2 * phi) - pi2 * hy * Scalar.cos phi + pi2 * hx * Scalar.sin phi
    + Q * pi2 * hdmi * Scalar.sin phi + iec
  gyro * fact + bj / dw

/-- domain_dynamics.py:69-76, `compute_gamma_b`. -/
def gammaB (X phi Q dw hshe hz hr beta bj Ms Lx Ly Lz V0pin V0edge pinning : T) : T :=
  let pi2 := Scalar.pi / 2
  let hp := pinningField X Ms pinning Ly Lz V0pin
  let he := edgeField X Lx V0edge
  let fact := Q * (he + hz + hp + pi2 * hshe * Scalar.cos phi) - beta * pi2 * hr * Scalar.cos phi
  gyro * fact + beta * bj / dw

/-- domain_dynamics.py:25-28, `DWRelax`. -/
inductive Relax where
  | no | static | dynamic
  deriving DecidableEq

/-- domain_dynamics.py:166, the allowed values of `moving_field`, and any other string. -/
inductive Moving where
  | perpendicular | inplane | other

/-- domain_dynamics.py:147-168, class `DomainWallDynamics`, with the attributes set by `__post_init__`; `Hk` is `none` when it is
never set. -/
structure Wall (T : Type) where
  hx : T
  hy : T
  hz : T
  alpha : T
  Ms : T
  thickness : T
  D : T
  Ku : T
  Kp : T
  A : T
  beta : T
  V0pin : T
  V0edge : T
  pinning : T
  Lx : T
  Ly : T
  Lz : T
  Q : T
  Hr : T
  relax : Relax
  bj : T
  Hshe : T
  dw0 : T
  Hk : Option T
  /-- The current driver, lines 191-195. -/
  je : T → T

/-- domain_dynamics.py:184-189, `get_unrelaxed_domain_width` as called (not effective): `math.sqrt` raises for a negative argument. -/
def unrelaxedWidth (A Ku : T) : Except Err T :=
  if Scalar.eqb Ku 0 then .error .zeroDivision
  else if Scalar.ltb (A / Ku) 0 then .error .valueError
  else .ok (Scalar.sqrt (A / Ku))

/-- domain_dynamics.py:201-207, the two anisotropy fields, and the choice in lines 179-182. -/
def anisotropyField (Ku Kp Ms : T) : Moving → Option T
  | .perpendicular => some (2 * Ku / (mu0 * Ms))
  | .inplane => some (2 * Kp / (mu0 * Ms))
  | .other => none

/-- domain_dynamics.py:170-182, the constructor. -/
def Wall.mk' (H : VectorObj T) (alpha Ms thickness sheAngle D Ku Kp A beta p V0pin V0edge pinning Lx Ly Lz Q Hr : T)
    (moving : Moving) (relax : Relax) : Except Err (Wall T) :=
  if Scalar.eqb (echarge * Ms) 0 then .error .zeroDivision
  else
    let denom := 2 * Ms * mu0 * echarge * thickness
    if Scalar.eqb denom 0 then .error .zeroDivision
    else
      let h := H.getCartesian
      match unrelaxedWidth A Ku with
      | .error e => .error e
      | .ok dw0 => .ok
        { hx := h.x, hy := h.y, hz := h.z, alpha, Ms, thickness, D, Ku, Kp, A, beta, V0pin, V0edge, pinning, Lx, Ly, Lz, Q, Hr, relax
          bj := bohrMagneton * p / (echarge * Ms)
          Hshe := hbar * sheAngle / denom
          dw0
          Hk := anisotropyField Ku Kp Ms moving
          je := fun _ => 0 }

/-- domain_dynamics.py:197-199, `get_Hdmi`. -/
def Wall.hdmi (w : Wall T) (width : T) : T := w.D / (mu0 * w.Ms * width)

/-- domain_dynamics.py:79-116, `compute_dynamics`, called as in lines 243-270. -/
def Wall.dynamics (w : Wall T) (X phi delta hk je iec : T) : T × T × T :=
  let ga := gammaA phi w.Q delta hk w.hx w.hy (w.hdmi delta) (w.bj * je) iec
  let gb := gammaB X phi w.Q delta (w.Hshe * je) w.hz w.Hr w.beta (w.bj * je) w.Ms w.Lx w.Ly w.Lz w.V0pin w.V0edge w.pinning
  let dX := delta * (ga + w.alpha * gb)
  let dPhi := -w.alpha * ga + gb
  let pref := gyro / (w.alpha * mu0 * w.Ms * w.thickness)
  (dX, dPhi, pref * (w.A / delta - delta * (w.Ku + w.Kp * Scalar.powi (Scalar.sin phi) 2)))

/-- domain_dynamics.py:210-214, class `MultilayerWallDynamics`. -/
structure Walls (T : Type) where
  layers : List (Wall T)
  J : T

/-- domain_dynamics.py:216-218, `__post_init__`. -/
def Walls.mk' (layers : List (Wall T)) (J : T) : Except Err (Walls T) :=
  if 2 < layers.length then .error .valueError else .ok ⟨layers, J⟩

/-- A component of the vector; Python counts negative indices from the end. -/
def get (vec : List T) (i : Int) : T :=
  if 0 ≤ i then vec.getD i.toNat 0 else vec.getD (vec.length - i.natAbs) 0

/-- The body of the loop in domain_dynamics.py:229-275, for layer `i`. An `Hk` that was never set is an `AttributeError`. -/
def Walls.layerRhs (s : Walls T) (t : T) (vec : List T) (i : Nat) (w : Wall T) : Except Err (List T) :=
  let je := w.je t
  let reduced := 1.0 + Scalar.powi w.alpha 2
  let lx := get vec (3 * i)
  let lphi := get vec (3 * i + 1)
  let width := get vec (3 * i + 2)
  let iec :=
    if s.layers.length = 1 then 0
    else 2 * s.J / (w.Ms * mu0 * w.thickness) * Scalar.sin (lphi - get vec (3 * ((i : Int) - 1) + 1))
  match w.Hk with
  | none => .error .attribute
  | some hk =>
    let d := w.dynamics lx lphi width hk je iec
    .ok [d.1 / reduced, d.2.1 / reduced, if w.relax = .dynamic then d.2.2 else 0]

/-- domain_dynamics.py:220-276, `multilayer_dw_llg`, from layer `i` on. -/
def Walls.rhsFrom (s : Walls T) (t : T) (vec : List T) : Nat → List (Wall T) → Except Err (List T)
  | _, [] => .ok []
  | i, w :: ws => do
    let a ← s.layerRhs t vec i w
    let b ← s.rhsFrom t vec (i + 1) ws
    .ok (a ++ b)

/-- domain_dynamics.py:220-276, `multilayer_dw_llg`. -/
def Walls.rhs (s : Walls T) (t : T) (vec : List T) : Except Err (List T) := s.rhsFrom t vec 0 s.layers

/-- The status of the integrator after a step. -/
inductive Status where
  | running | finished | failed
  deriving DecidableEq

/-- What the code reads from the integrator after a step, domain_dynamics.py:295-316. -/
structure Step (T : Type) where
  tOld : T
  t : T
  yOld : List T
  y : List T
  status : Status

/-- scipy's `step_size`: |t - t_old|. -/
def Step.size (s : Step T) : T := Scalar.abs (s.t - s.tOld)

/-- One row of the result for one layer: `dw_i`, `v_i`, `x_i`, `phi_i`, `je_i`. -/
structure Row (T : Type) where
  dw : T
  v : T
  x : T
  phi : T
  je : T

/-- The body of the inner loop, domain_dynamics.py:301-316. -/
def rowOf (st : Step T) (i : Nat) (w : Wall T) : Row T :=
  let x := get st.y (3 * i)
  let phi := get st.y (3 * i + 1)
  let dw := get st.y (3 * i + 2)
  let dw := if w.relax = .static then w.dw0 / Scalar.sqrt (1 + w.Kp / w.Ku * Scalar.powi (Scalar.sin phi) 2) else dw
  { dw, v := (x - get st.yOld (2 * i)) / st.size, x, phi, je := w.je st.t }

/-- The rows of all layers, domain_dynamics.py:301-316. -/
def rowsFrom (st : Step T) : Nat → List (Wall T) → List (Row T)
  | _, [] => []
  | i, w :: ws => rowOf st i w :: rowsFrom st (i + 1) ws

/-- domain_dynamics.py:293-320, the loop of `run`: the rows of each step, with the time. -/
def Walls.runLoop (s : Walls T) : List (Step T) → List (T × List (Row T))
  | [] => []
  | st :: rest =>
    match st.status with
    | .failed => []
    | .finished => [(st.t, rowsFrom st 0 s.layers)]
    | .running => (st.t, rowsFrom st 0 s.layers) :: s.runLoop rest

end Domain
