import Verif.Props.Fields
import Verif.Props.Torque
import Verif.Spec.Junction
import Mathlib.Analysis.Calculus.ContDiff.Operations

/-!
The equation of motion of a stack of macrospins, written down from the documentation and not from the control flow of
the code: field, precession, damping and spin torques of one layer, and what it means that given curves solve it.
-/

namespace Spec
open Layer

/-- The effective field of a layer without fluctuations. -/
noncomputable def field (l : Layer ℝ) (t : ℝ) (m below above : CVec ℝ) : CVec ℝ :=
  ⟨heffSpec l t m below above ⟨0, 0, 0⟩ CVec.x, heffSpec l t m below above ⟨0, 0, 0⟩ CVec.y,
    heffSpec l t m below above ⟨0, 0, 0⟩ CVec.z⟩

/-- Denominator of the Slonczewski efficiency. -/
noncomputable def sttDenominator (l : Layer ℝ) (m p : CVec ℝ) : ℝ :=
  if l.alternativeSTTSet = true then 1 + l.slonczewski * m.dot p
  else l.slonczewski ^ 2 + 1 + (l.slonczewski ^ 2 - 1) * m.dot p

/-- Slonczewski efficiency. -/
noncomputable def sttEfficiency (l : Layer ℝ) (m p : CVec ℝ) : ℝ :=
  (if l.alternativeSTTSet = true then l.spinPolarisation else l.spinPolarisation * l.slonczewski ^ 2) / sttDenominator l m p

/-- Spin-transfer amplitude `ħ I / (e Ms d)`. -/
noncomputable def sttAmplitude (l : Layer ℝ) (t : ℝ) : ℝ :=
  6.62607015e-34 / (2 * Real.pi) * l.currentDriver.value t / (1.60217662e-19 * l.Ms * l.thickness)

/-- Spin torques divided by the gyromagnetic ratio. -/
noncomputable def spinTorque (l : Layer ℝ) (t : ℝ) (m p : CVec ℝ) : CVec ℝ :=
  if l.includeSTT = true then
    smul (sttAmplitude l t * sttEfficiency l m p * l.beta) (m.cross p) -
      smul (sttAmplitude l t * sttEfficiency l m p * l.kappa) (m.cross (m.cross p))
  else if l.includeSOT = true then
    ⟨0, 0, 0⟩ - smul ((sotFields l t).1 - l.damping * (sotFields l t).2) (m.cross p) -
      smul ((sotFields l t).2 + l.damping * (sotFields l t).1) (m.cross (m.cross p))
  else ⟨0, 0, 0⟩

/-- Landau-Lifshitz-Gilbert: `(1 + α²) dm/dt = γ (-m × H - α m × (m × H) + spin torques)`. -/
noncomputable def motion (l : Layer ℝ) (t : ℝ) (m below above : CVec ℝ) : CVec ℝ :=
  let H := field l t m below above
  smul (220880 / (1 + l.damping ^ 2))
    (spinTorque l t m (polariser l below above) - m.cross H - smul l.damping (m.cross (m.cross H)))

/-- The neighbours of layer `i` among `n` moving layers. -/
def lower (m : Nat → ℝ → CVec ℝ) (i : Nat) (t : ℝ) : CVec ℝ := if i = 0 then ⟨0, 0, 0⟩ else m (i - 1) t
def upper (n : Nat) (m : Nat → ℝ → CVec ℝ) (i : Nat) (t : ℝ) : CVec ℝ := if i + 1 < n then m (i + 1) t else ⟨0, 0, 0⟩

/-- The curve `c` has slope `v` at time `t`. -/
def Slope (c : ℝ → CVec ℝ) (v : CVec ℝ) (t : ℝ) : Prop :=
  HasDerivAt (fun s => (c s).x) v.x t ∧ HasDerivAt (fun s => (c s).y) v.y t ∧ HasDerivAt (fun s => (c s).z) v.z t

/-- The curves `m` solve the coupled equations of motion of the layers during `I`. -/
def Motion (ls : List (Layer ℝ)) (m : Nat → ℝ → CVec ℝ) (I : Set ℝ) : Prop :=
  ∀ (i : Nat) (l : Layer ℝ), ls[i]? = some l → ∀ t ∈ I,
    Slope (m i) (motion l t (m i t) (lower m i t) (upper ls.length m i t)) t

/-- A vector-valued function of time is four times continuously differentiable at `t`. -/
def SmoothVec (d : ℝ → CVec ℝ) (t : ℝ) : Prop :=
  ContDiffAt ℝ 4 (fun s => (d s).x) t ∧ ContDiffAt ℝ 4 (fun s => (d s).y) t ∧ ContDiffAt ℝ 4 (fun s => (d s).z) t

/-- All drivers entering the equation of motion are four times continuously differentiable at `t`. -/
structure Smooth (l : Layer ℝ) (t : ℝ) : Prop where
  iecTop : ContDiffAt ℝ 4 l.IECDriverTop.value t
  iecBottom : ContDiffAt ℝ 4 l.IECDriverBottom.value t
  quadTop : ContDiffAt ℝ 4 l.IECQuadDriverTop.value t
  quadBottom : ContDiffAt ℝ 4 l.IECQuadDriverBottom.value t
  current : ContDiffAt ℝ 4 l.currentDriver.value t
  anisotropy : ContDiffAt ℝ 4 l.anisotropyDriver.value t
  fieldLike : ContDiffAt ℝ 4 l.fieldLikeTorqueDriver.value t
  dampingLike : ContDiffAt ℝ 4 l.dampingLikeTorqueDriver.value t
  idmiTop : SmoothVec l.IDMIDriverTop.value t
  idmiBottom : SmoothVec l.IDMIDriverBottom.value t
  reserved : SmoothVec l.HreservedDriver.value t
  external : SmoothVec l.externalFieldDriver.value t
  oersted : SmoothVec l.HoeDriver.value t
  dmi : SmoothVec l.HdmiDriver.value t

/-- The spin-transfer efficiency of the layer has no pole at `m`. -/
def NoPole (l : Layer ℝ) (m below above : CVec ℝ) : Prop :=
  l.includeSTT = true → sttDenominator l m (polariser l below above) ≠ 0

/-- Whatever vectors of length at most one the layers hold, the spin-transfer efficiency has no pole. -/
def Poleless (l : Layer ℝ) : Prop := ∀ m b a : CVec ℝ, m.length ≤ 1 → b.length ≤ 1 → a.length ≤ 1 → NoPole l m b a

/-- Drivers that are smooth functions of time. -/
def SmoothKind (d : ScalarDriver ℝ) : Prop :=
  d.update = .constant ∨ d.update = .sine ∨ d.update = .gaussimpulse ∨ d.update = .gaussstep

/-- All three components of the driver are smooth functions of time. -/
def SmoothAxes (d : AxialDriver ℝ) : Prop := SmoothKind d.dx ∧ SmoothKind d.dy ∧ SmoothKind d.dz

/-- All drivers of the layer entering the equation of motion are smooth functions of time. -/
structure SmoothDrivers (l : Layer ℝ) : Prop where
  iecTop : SmoothKind l.IECDriverTop
  iecBottom : SmoothKind l.IECDriverBottom
  quadTop : SmoothKind l.IECQuadDriverTop
  quadBottom : SmoothKind l.IECQuadDriverBottom
  current : SmoothKind l.currentDriver
  anisotropy : SmoothKind l.anisotropyDriver
  fieldLike : SmoothKind l.fieldLikeTorqueDriver
  dampingLike : SmoothKind l.dampingLikeTorqueDriver
  idmiTop : SmoothAxes l.IDMIDriverTop
  idmiBottom : SmoothAxes l.IDMIDriverBottom
  reserved : SmoothAxes l.HreservedDriver
  external : SmoothAxes l.externalFieldDriver
  oersted : SmoothAxes l.HoeDriver
  dmi : SmoothAxes l.HdmiDriver

/-- The curves `m` solve the equations of motion of the junction on an open interval around `[0, T]`, start from its
magnetisations (which have length one), and the equations are regular along them: nothing fluctuates, all volumes make
sense, all drivers are smooth, the spin-transfer efficiency has no pole. -/
structure Track (j : Junction ℝ) (m : Nat → ℝ → CVec ℝ) (T : ℝ) : Prop where
  solves : ∃ lo hi : ℝ, lo < 0 ∧ T < hi ∧ Motion j.layers m (Set.Ioo lo hi)
  start : ∀ (i : Nat) (l : Layer ℝ), j.layers[i]? = some l → m i 0 = l.mag
  unit : ∀ l ∈ j.layers, l.mag.length = 1
  volume : ∀ l ∈ j.layers, l.Ms * l.thickness ≠ 0
  quiet : ∀ l ∈ j.layers, ¬ Noisy l
  smooth : ∀ l ∈ j.layers, ∀ t ∈ Set.Icc 0 T, Smooth l t
  noPole : ∀ (i : Nat) (l : Layer ℝ), j.layers[i]? = some l → ∀ t ∈ Set.Icc 0 T,
    NoPole l (m i t) (lower m i t) (upper j.layers.length m i t)

/-- The magnetisations of the junction differ from those of the curves at time `t` by at most `e`. -/
def Near (k : Junction ℝ) (m : Nat → ℝ → CVec ℝ) (t e : ℝ) : Prop :=
  ∀ (i : Nat) (l : Layer ℝ), k.layers[i]? = some l → (l.mag - m i t).length ≤ e

/-- `n` iterations of the loop of a simulation (with the solver it selects, recording every `we` iterations) end in `k`.
The number of iterations is not limited by the width of the counter of the code, so that `dt` may tend to zero. -/
def LoopEnds (j : Junction ℝ) (mode : SolverMode) (n : Nat) (dt : ℝ) (we : Nat) (en : Bool) (k : Junction ℝ) : Prop :=
  ∃ (s : Junction.Runner × SolverMode) (j1 : Junction ℝ), j.getSolver mode n = .ok s j1 ∧
    Junction.runLoop s.1 dt we en 0 n j1 = .ok () k

/-- Convergence of order `p` towards `m`: up to a constant, any number of steps of length `dt` within `[0, T]` ends
within `dt ^ p` of the curves; with the same constant this holds for all runs of a duration up to `T`. -/
def Converges (j : Junction ℝ) (mode : SolverMode) (m : Nat → ℝ → CVec ℝ) (T : ℝ) (p : Nat) : Prop :=
  ∃ C r : ℝ, 0 < r ∧
    (∀ (n : Nat) (dt : ℝ), 0 < dt → dt ≤ r → n * dt ≤ T → ∀ (we : Nat) (en : Bool) (k : Junction ℝ),
      LoopEnds j mode n dt we en k → Near k m (n * dt) (C * dt ^ p)) ∧
    ∀ dt total wf : ℝ, 0 < dt → dt ≤ r → 0 ≤ total → total ≤ T → ∀ (en : Bool) (k : Junction ℝ),
      j.runSimulation total dt wf en mode = .ok () k → Near k m (⌊total / dt⌋₊ * dt) (C * dt ^ p)

end Spec
