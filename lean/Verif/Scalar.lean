import Mathlib.Analysis.SpecialFunctions.Trigonometric.Basic
import Mathlib.Analysis.SpecialFunctions.Complex.Arg
import Mathlib.Analysis.SpecialFunctions.Pow.Real
import Mathlib.MeasureTheory.Integral.IntervalIntegral.Basic
import Mathlib.Algebra.Order.Floor.Ring
import Mathlib.Tactic.Ring
import Mathlib.Tactic.Linarith
import Mathlib.Tactic.NormNum
import Mathlib.Tactic.FieldSimp
import Mathlib.Tactic.Positivity

/-!
# Scalars

The C++ core is templated over a floating point type `T`. The model is generic in a type `T` with the
operations the code uses. No laws are part of the class: a theorem stated for every `Scalar T` holds for IEEE
doubles as well as for the reals. The instance for `ℝ` below is the idealised arithmetic (no rounding, no
NaN, no overflow).

`Err` enumerates the ways a modelled call can fail; `Err.ub` stands for C++ undefined behaviour.
-/

/-- Failures of modelled calls. One constructor per kind of `throw` in the code, plus `ub` for
undefined behaviour (cast out of range, remainder by zero, access out of bounds). -/
inductive Err
  | badLength        -- cvector.hpp:25
  | divZero          -- cvector.hpp:147,155
  | driverArgs       -- drivers.hpp:118-124
  | stepTimes        -- drivers.hpp:191-193
  | badMask          -- drivers.hpp:351-353
  | axialLength      -- drivers.hpp:381-383
  | zeroMag          -- junction.hpp:157-160, 428-431
  | zeroAnis         -- junction.hpp:161-163
  | sttSotMix        -- junction.hpp:394-403, 405-414
  | alphaRange       -- junction.hpp:370-371
  | alphaUnset       -- junction.hpp:380-383
  | zeroReference    -- junction.hpp:486-489
  | badAxis          -- noise.hpp:284-286
  | nan              -- junction.hpp:788-790
  | zeroSurface      -- junction.hpp:862-864
  | noLayers         -- junction.hpp:918-920, 972-974
  | noPinning        -- junction.hpp:926-929
  | tooManyLayers    -- junction.hpp:931-935
  | mrLengths        -- junction.hpp:975-983
  | layerNotFound    -- junction.hpp:1022-1025, 1037-1040, 1232-1235, 1273
  | pairNotFound     -- junction.hpp:1072-1076, 1108-1112
  | mrUnsupported    -- junction.hpp:1574-1577
  | timeStepTooLarge -- junction.hpp:1641-1644
  | emptyFilename    -- junction.hpp:1342-1345
  | tooFewJunctions  -- stack.hpp:50-52
  | nonClassicMR     -- stack.hpp:54-61
  | noCoupling       -- stack.hpp:66-68
  | notTwoLayers     -- stack.hpp:76-79
  | mixedLayers      -- stack.hpp:204-206
  | badCoupling      -- stack.hpp:157-160
  | badIndex         -- stack.hpp:94 (std::out_of_range), 183-186
  | polarisation     -- stack.hpp:192-193, 196-198
  | mixedModes       -- stack.hpp:236-241
  | zeroVolume       -- llgb.hpp:94-96
  | badSolver        -- llgb.hpp:455-456
  | emptyLog         -- compute.hpp:38-41, 101-104, 164-167
  | badTag           -- compute.hpp:43-47, 123-127, 182-185
  | lateMinTime      -- compute.hpp:97-100
  | noPlan           -- compute.hpp:135-138, 198-200
  | badPositions     -- reservoir.hpp:163-170, 178-180
  | tooClose         -- reservoir.hpp:44-47, 89-92
  | valueError       -- Python ValueError
  | indexError       -- Python IndexError
  | keyError         -- Python KeyError
  | unboundLocal     -- Python UnboundLocalError
  | zeroDivision     -- Python ZeroDivisionError
  | typeError        -- Python TypeError
  | attribute        -- Python AttributeError
  | notImplemented   -- Python NotImplementedError
  | assertion        -- Python AssertionError
  | linAlg           -- numpy LinAlgError
  | fuel             -- the model's fuel ran out (never the code)
  | ub               -- undefined behaviour in C++
  deriving DecidableEq, Repr

/-- Operations on scalars used by the code. -/
class Scalar (T : Type) extends Add T, Sub T, Mul T, Div T, Neg T where
  /-- Numeric literals and conversions from integer types. -/
  lit : ℚ → T
  ltb : T → T → Bool
  leb : T → T → Bool
  eqb : T → T → Bool
  /-- `std::pow` with a literal natural exponent. -/
  powi : T → Nat → T
  /-- general `pow`. -/
  rpow : T → T → T
  sqrt : T → T
  sin : T → T
  cos : T → T
  tan : T → T
  acos : T → T
  atan2 : T → T → T
  exp : T → T
  tanh : T → T
  cosh : T → T
  sinh : T → T
  log : T → T
  erf : T → T
  abs : T → T
  /-- The constant `M_PI`; in the instance for `ℝ` it is π itself. -/
  pi : T
  /-- `static_cast<int>`: truncation towards zero, `none` if undefined (out of range or NaN). -/
  toInt : T → Option Int
  /-- `static_cast<unsigned int>`: truncation towards zero, `none` if undefined. -/
  toUInt : T → Option Nat

namespace Scalar

variable {T : Type} [Scalar T]

instance (priority := 10) instOfNat (n : Nat) : OfNat T n := ⟨Scalar.lit (n : ℚ)⟩
instance (priority := 10) instOfSci : OfScientific T :=
  ⟨fun m s e => Scalar.lit (OfScientific.ofScientific m s e : ℚ)⟩

/-- `std::isnan(x)`: a float is NaN iff it differs from itself. -/
def isNan (x : T) : Bool := !(eqb x x)

/-- Truncation towards zero on the reals. -/
noncomputable def truncR (x : ℝ) : Int := if 0 ≤ x then ⌊x⌋ else ⌈x⌉

noncomputable instance instReal : Scalar ℝ where
  lit q := (q : ℝ)
  ltb a b := decide (a < b)
  leb a b := decide (a ≤ b)
  eqb a b := decide (a = b)
  powi x n := x ^ n
  rpow x y := x ^ y
  sqrt := Real.sqrt
  sin := Real.sin
  cos := Real.cos
  tan := Real.tan
  acos := Real.arccos
  atan2 y x := Complex.arg ⟨x, y⟩
  exp := Real.exp
  tanh := Real.tanh
  cosh := Real.cosh
  sinh := Real.sinh
  log := Real.log
  erf x := 2 / Real.sqrt Real.pi * ∫ t in (0 : ℝ)..x, Real.exp (-t ^ 2)
  abs x := |x|
  pi := Real.pi
  toInt x := if -2147483649 < x ∧ x < 2147483648 then some (truncR x) else none
  toUInt x := if -1 < x ∧ x < 4294967296 then some (truncR x).toNat else none

/-! Rewriting the operations of the instance to Mathlib's. -/

@[simp] theorem ofNat_real (n : Nat) : (@OfNat.ofNat ℝ n (instOfNat n)) = (n : ℝ) := by
  show (((n : ℚ) : ℝ)) = _
  simp
@[simp] theorem ofSci_real_true (m e : Nat) :
    (@OfScientific.ofScientific ℝ instOfSci m true e) = (m : ℝ) / 10 ^ e := by
  show (((Rat.ofScientific m true e : ℚ) : ℝ)) = _
  rw [Rat.ofScientific_true_def, Rat.mkRat_eq_div]; push_cast; ring
@[simp] theorem ofSci_real_false (m e : Nat) :
    (@OfScientific.ofScientific ℝ instOfSci m false e) = (m : ℝ) * 10 ^ e := by
  show (((Rat.ofScientific m false e : ℚ) : ℝ)) = _
  rw [Rat.ofScientific_false_def]; push_cast; ring
@[simp] theorem lit_real (q : ℚ) : (Scalar.lit q : ℝ) = (q : ℝ) := rfl
@[simp] theorem ltb_real (a b : ℝ) : Scalar.ltb a b = decide (a < b) := rfl
@[simp] theorem leb_real (a b : ℝ) : Scalar.leb a b = decide (a ≤ b) := rfl
@[simp] theorem eqb_real (a b : ℝ) : Scalar.eqb a b = decide (a = b) := rfl
@[simp] theorem powi_real (x : ℝ) (n : Nat) : Scalar.powi x n = x ^ n := rfl
@[simp] theorem sqrt_real (x : ℝ) : Scalar.sqrt x = Real.sqrt x := rfl
@[simp] theorem sin_real (x : ℝ) : Scalar.sin x = Real.sin x := rfl
@[simp] theorem cos_real (x : ℝ) : Scalar.cos x = Real.cos x := rfl
@[simp] theorem tan_real (x : ℝ) : Scalar.tan x = Real.tan x := rfl
@[simp] theorem acos_real (x : ℝ) : Scalar.acos x = Real.arccos x := rfl
@[simp] theorem atan2_real (y x : ℝ) : Scalar.atan2 y x = Complex.arg ⟨x, y⟩ := rfl
@[simp] theorem exp_real (x : ℝ) : Scalar.exp x = Real.exp x := rfl
@[simp] theorem tanh_real (x : ℝ) : Scalar.tanh x = Real.tanh x := rfl
@[simp] theorem cosh_real (x : ℝ) : Scalar.cosh x = Real.cosh x := rfl
@[simp] theorem sinh_real (x : ℝ) : Scalar.sinh x = Real.sinh x := rfl
@[simp] theorem log_real (x : ℝ) : Scalar.log x = Real.log x := rfl
@[simp] theorem abs_real (x : ℝ) : Scalar.abs x = |x| := rfl
@[simp] theorem pi_real : (Scalar.pi : ℝ) = Real.pi := rfl
@[simp] theorem isNan_real (x : ℝ) : Scalar.isNan x = false := by simp [isNan]

end Scalar
