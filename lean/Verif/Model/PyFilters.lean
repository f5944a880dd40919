import Verif.Model.PyProc

/-!
# Model of the filters of `cmtj/utils/filters.py` and of `cmtj/models/drivers.py`

Simplifications:
* scipy's `butter` is an argument: it takes the order and the edges and returns the coefficients or raises.
* Numbers are Python floats, so a division by 0 raises.
* What is printed is left out.
-/

namespace PyFilters
variable {T : Type} [Scalar T]

/-- What a caller may pass as `pass_freq`: a float, a tuple, or anything else. -/
inductive PassFreq (T : Type) where
  | float (x : T)
  | tuple (xs : List T)
  | other

/-- filters.py:17-27, the coefficients for a float of value 0. A `ValueError` is raised again as one. -/
def bandFromZero (butter : Nat → T → T → Except Err (List T × List T)) (nyq : T) (order : Nat) : Except Err (List T × List T) :=
  let passFreq : T := 0.1
  if Scalar.eqb nyq 0 = true then .error .zeroDivision
  else butter order (0.9 * passFreq / nyq) (passFreq / nyq)

/-- filters.py:15-29, the coefficients; `b` and `a` stay unbound in the remaining cases. -/
def bandCoefficients (butter : Nat → T → T → Except Err (List T × List T)) (passFreq : PassFreq T) (fs : T) (order : Nat) :
    Except Err (List T × List T) :=
  let nyq : T := 0.5 * fs
  match passFreq with
  | .float x => if Scalar.eqb x 0 = true then bandFromZero butter nyq order else .error .unboundLocal
  | .tuple (low :: high :: _) => butter order low high
  | .tuple _ => .error .indexError
  | .other => .error .unboundLocal

/-- filters.py:7-30, `butter_bandpass_filter`. -/
def butterBandpass (butter : Nat → T → T → Except Err (List T × List T)) (data : List T) (passFreq : PassFreq T) (fs : T) (order : Nat) :
    Except Err (List T) :=
  match bandCoefficients butter passFreq fs order with
  | .error e => .error e
  | .ok (b, a) => .ok (Proc.lfilter b a data)

/-- filters.py:32-43, `butter_lowpass_filter`. -/
def butterLowpass (butter : Nat → T → Except Err (List T × List T)) (data : List T) (cutoff fs : T) (order : Nat) : Except Err (List T) :=
  let nyq : T := 0.5 * fs
  if Scalar.eqb nyq 0 = true then .error .zeroDivision
  else
    match butter order (cutoff / nyq) with
    | .error e => .error e
    | .ok (b, a) => .ok (Proc.lfilter b a data)

end PyFilters

namespace PyDrivers
variable {T : Type} [Scalar T]

/-- models/drivers.py:6-7 -/
def constantDriver (_t amp : T) : T := amp

/-- models/drivers.py:10-12 -/
def sineDriver (t amp freq phase : T) : T := amp * Scalar.sin (freq * t + phase)

/-- models/drivers.py:15-17 -/
def decayDriver (t amp tau : T) : Except Err T :=
  if Scalar.eqb tau 0 = true then .error .zeroDivision else .ok (amp * Scalar.exp (-t / tau))

/-- models/drivers.py:20-22 -/
def gaussianDriver (t amp sigma : T) : Except Err T :=
  if Scalar.eqb (Scalar.powi sigma 2) 0 = true then .error .zeroDivision
  else .ok (amp * Scalar.exp (-(Scalar.powi t 2) / Scalar.powi sigma 2))

end PyDrivers
