import Verif.Model.CVector
import Mathlib.Analysis.Calculus.Deriv.Basic

/-!
# Model of `cmtj/utils/resistance.py`

Simplifications:
* `m` of shape `[layers, 3, T]` is a list (layers) of lists (time) of vectors; shape `[layers, 3]` is the case of one time sample.
  `nt` is the length of the time axis. Arrays of shape `[layers, T]` are lists of lists.
* numpy divides by zero without an exception; the model uses the division of `T`.
* The symbolic expressions of the linearised resistances are functions of the four angles; `sym.diff` is the derivative. `evalf` is
  the identity.
* `compute_sd` is in `Model/PyProc`.
-/

namespace PyResistance
variable {T : Type} [Scalar T]

/-- The loop body of `compute_resistance`, resistance.py:53-58, for one layer and one time sample. -/
def layerSample (rx0 ry0 amr ahe smr w_l : T) (m : CVec T) : T × T :=
  (rx0 + (amr * Scalar.powi m.x 2 + smr * Scalar.powi m.y 2),
   ry0 + 0.5 * ahe * m.z + w_l * (smr - amr) * m.x * m.y)

/-- The loop of resistance.py:51-58 from layer `i` for `n` more: rows of `SxAll` and `SyAll`. A list that is too short raises
`IndexError`, a zero length `ZeroDivisionError`. -/
def layerRows (Rx0 Ry0 AMR AHE SMR : List T) (m : List (List (CVec T))) (l w : List T) :
    Nat → Nat → Except Err (List (List T) × List (List T))
  | _, 0 => .ok ([], [])
  | i, n + 1 =>
    match w[i]?, l[i]? with
    | some wi, some li =>
      if Scalar.eqb li 0 then .error .zeroDivision
      else
        match Rx0[i]?, Ry0[i]?, AMR[i]?, AHE[i]?, SMR[i]?, m[i]? with
        | some rx, some ry, some am, some ah, some sm, some mi =>
          match layerRows Rx0 Ry0 AMR AHE SMR m l w (i + 1) n with
          | .ok (xs, ys) =>
            .ok (mi.map (fun v => (layerSample rx ry am ah sm (wi / li) v).1) :: xs,
                 mi.map (fun v => (layerSample rx ry am ah sm (wi / li) v).2) :: ys)
          | .error e => .error e
        | _, _, _, _, _, _ => .error .indexError
    | _, _ => .error .indexError

/-- resistance.py:25-59, `compute_resistance`. -/
def computeResistance (Rx0 Ry0 AMR AHE SMR : List T) (m : List (List (CVec T))) (l w : List T) :
    Except Err (List (List T) × List (List T)) :=
  layerRows Rx0 Ry0 AMR AHE SMR m l w 0 Rx0.length

/-- `np.sum(rows, axis=0)` for rows of length `nt`. -/
def sumRows (nt : Nat) (rows : List (List T)) : List T :=
  rows.foldl (List.zipWith (· + ·)) (List.replicate nt 0)

/-- resistance.py:87-115, `calculate_resistance_parallel`. -/
def parallelResistance (nt : Nat) (Rx0 Ry0 AMR AHE SMR : List T) (m : List (List (CVec T))) (l w : List T) :
    Except Err (List T × List T) :=
  match computeResistance Rx0 Ry0 AMR AHE SMR m l w with
  | .ok (sx, sy) =>
    .ok ((sumRows nt (sx.map (·.map (1.0 / ·)))).map (1.0 / ·), (sumRows nt (sy.map (·.map (1.0 / ·)))).map (1.0 / ·))
  | .error e => .error e

/-- resistance.py:118-146, `calculate_resistance_series`. -/
def seriesResistance (nt : Nat) (Rx0 Ry0 AMR AHE SMR : List T) (m : List (List (CVec T))) (l w : List T) :
    Except Err (List T × List T) :=
  match computeResistance Rx0 Ry0 AMR AHE SMR m l w with
  | .ok (sx, sy) => .ok (sumRows nt sx, sumRows nt sy)
  | .error e => .error e

/-- `np.sum(m1 * m2, axis=0)` for two vectors. -/
def dotSum (a b : CVec T) : T := a.x * b.x + a.y * b.y + a.z * b.z

/-- resistance.py:62-68, `compute_gmr`, for one time sample. -/
def computeGmr (Rp Rap : T) (m1 m2 : CVec T) : T := Rp + 0.5 * (Rap - Rp) * (1 - dotSum m1 m2)

/-- resistance.py:71-84, `calculate_magnetoresistance`, for one time sample. -/
def calculateMagnetoresistance (Rp Rap : T) (m : List (CVec T)) : Except Err T :=
  match m with
  | [m0, m1] => .ok (Rp + 0.5 * (Rap - Rp) * dotSum m0 m1)
  | _ => .error .valueError

/-- The vector of resistance.py:165-171 and 172-178. -/
def angularVector (theta phi : T) : CVec T :=
  ⟨Scalar.cos theta * Scalar.cos phi, Scalar.cos theta * Scalar.sin phi, Scalar.sin theta⟩

/-- resistance.py:149-179, `angular_calculate_resistance_gmr`. -/
def angularGmr (Rp Rap theta1 phi1 theta2 phi2 : T) : T :=
  computeGmr Rp Rap (angularVector theta1 phi1) (angularVector theta2 phi2)

/-- resistance.py:199-205, `m1` as a function of the angles. -/
def linM1 (theta1 phi1 : T) : CVec T :=
  ⟨Scalar.sin theta1 * Scalar.cos phi1, Scalar.sin theta1 * Scalar.sin phi1, Scalar.cos theta1⟩

/-- resistance.py:206-212, `m2` as a function of the angles (the y component has a minus sign). -/
def linM2 (theta2 phi2 : T) : CVec T :=
  ⟨Scalar.sin theta2 * Scalar.cos phi2, -(Scalar.sin theta2) * Scalar.sin phi2, Scalar.cos theta2⟩

/-- resistance.py:213, `GMR_resistance`. -/
def linGmr (GMR t1 p1 t2 p2 : T) : T := GMR * (1 - dotSum (linM1 t1 p1) (linM2 t2 p2)) / 2.0

/-- resistance.py:215-216, `Rxx1` and `Rxx2`. -/
def linRxx (amr smr : T) (m : CVec T) : T := amr * Scalar.powi m.x 2 + smr * Scalar.powi m.y 2

/-- resistance.py:293, `Rseries` as a function of the angles. -/
def rSeries (GMR : T) (AMR SMR : T × T) (t1 p1 t2 p2 : T) : T :=
  linGmr GMR t1 p1 t2 p2 + linRxx AMR.1 SMR.1 (linM1 t1 p1) + linRxx AMR.2 SMR.2 (linM2 t2 p2)

/-- resistance.py:8, `EPS`. -/
def eps : T := 1e-15

/-- `any(AMR) or any(SMR)` for lists of two numbers. -/
def anyNonzero (AMR SMR : T × T) : Bool :=
  !(Scalar.eqb AMR.1 0) || !(Scalar.eqb AMR.2 0) || !(Scalar.eqb SMR.1 0) || !(Scalar.eqb SMR.2 0)

/-- resistance.py:242-244, `Rparallel` as a function of the angles. -/
def rParallel (GMR : T) (AMR SMR : T × T) (t1 p1 t2 p2 : T) : T :=
  if anyNonzero AMR SMR then
    linGmr GMR t1 p1 t2 p2 + (linRxx AMR.1 SMR.1 (linM1 t1 p1) * linRxx AMR.2 SMR.2 (linM2 t2 p2)) /
      (linRxx AMR.1 SMR.1 (linM1 t1 p1) + linRxx AMR.2 SMR.2 (linM2 t2 p2) + eps)
  else linGmr GMR t1 p1 t2 p2

/-- resistance.py:245-250 and 294-299: the sum of the partial derivatives times the changes of the angles. -/
noncomputable def linearise (R : ℝ → ℝ → ℝ → ℝ → ℝ) (t1 p1 t2 p2 dt1 dp1 dt2 dp2 : ℝ) : ℝ :=
  deriv (fun x => R x p1 t2 p2) t1 * dt1 + deriv (fun x => R t1 x t2 p2) p1 * dp1 +
    deriv (fun x => R t1 p1 x p2) t2 * dt2 + deriv (fun x => R t1 p1 t2 x) p2 * dp2

/-- resistance.py:220-268, `calculate_linearised_resistance_parallel`. -/
noncomputable def linearisedParallel (GMR : ℝ) (AMR SMR : ℝ × ℝ) (t1 p1 t2 p2 dt1 dp1 dt2 dp2 : ℝ) : ℝ × ℝ :=
  (linearise (rParallel GMR AMR SMR) t1 p1 t2 p2 dt1 dp1 dt2 dp2, rParallel GMR AMR SMR t1 p1 t2 p2)

/-- resistance.py:271-317, `calculate_linearised_resistance_series`. -/
noncomputable def linearisedSeries (GMR : ℝ) (AMR SMR : ℝ × ℝ) (t1 p1 t2 p2 dt1 dp1 dt2 dp2 : ℝ) : ℝ × ℝ :=
  (linearise (rSeries GMR AMR SMR) t1 p1 t2 p2 dt1 dp1 dt2 dp2, rSeries GMR AMR SMR t1 p1 t2 p2)

end PyResistance
