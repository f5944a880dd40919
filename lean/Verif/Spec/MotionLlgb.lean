import Verif.Spec.Motion
import Verif.Props.LlgbSteps

/-! Specification vocabulary: the Landau-Lifshitz-Bloch equation of motion (`Spec.llbRate`) and convergence of runs. -/

namespace Spec

/-- The curves `m` solve the equation of motion of all layers at all times of `I`. The layers do not interact. -/
def LlgbMotion (ls : List (LLGBLayer ℝ)) (m : Nat → ℝ → CVec ℝ) (I : Set ℝ) : Prop :=
  ∀ (i : Nat) (l : LLGBLayer ℝ), ls[i]? = some l → ∀ t ∈ I, Slope (m i) (llbRate l t (m i t)) t

/-- The drivers of the layer are smooth at time `t` and the temperature is not the Curie temperature, where the equation is
defined piecewise. -/
structure LlgbSmooth (l : LLGBLayer ℝ) (t : ℝ) : Prop where
  temperature : ContDiffAt ℝ 4 l.temperatureDriver.value t
  anisotropy : ContDiffAt ℝ 4 l.anisotropyDriver.value t
  external : SmoothVec l.externalFieldDriver.value t
  curie : l.temperatureDriver.value t ≠ l.Tc

/-- The drivers of the layer do not depend on time. -/
structure Steady (l : LLGBLayer ℝ) : Prop where
  temperature : ∀ t, l.temperatureDriver.value t = l.temperatureDriver.value 0
  anisotropy : ∀ t, l.anisotropyDriver.value t = l.anisotropyDriver.value 0
  external : ∀ t, l.externalFieldDriver.value t = l.externalFieldDriver.value 0

/-- The curves `m` solve the equations of motion on an open interval around the duration `T` from the present time of the
junction, start from its magnetisations, do not vanish, and the equations are regular along them. -/
structure LlgbTrack (j : LLGBJunction ℝ) (m : Nat → ℝ → CVec ℝ) (T : ℝ) : Prop where
  solves : ∃ lo hi : ℝ, lo < j.time ∧ j.time + T < hi ∧ LlgbMotion j.layers m (Set.Ioo lo hi)
  start : ∀ (i : Nat) (l : LLGBLayer ℝ), j.layers[i]? = some l → m i j.time = l.mag
  smooth : ∀ l ∈ j.layers, ∀ t ∈ Set.Icc j.time (j.time + T), LlgbSmooth l t
  nonzero : ∀ i < j.layers.length, ∀ t ∈ Set.Icc j.time (j.time + T), m i t ≠ .zero

/-- The magnetisations of the junction differ from those of the curves at time `t` by at most `e`. -/
def LlgbNear (k : LLGBJunction ℝ) (m : Nat → ℝ → CVec ℝ) (t e : ℝ) : Prop :=
  ∀ (i : Nat) (l : LLGBLayer ℝ), k.layers[i]? = some l → (l.mag - m i t).length ≤ e

/-- `n` iterations of the loop of a simulation end in `k`; the number is not limited by the width of the counter. -/
def LlgbLoopEnds (j : LLGBJunction ℝ) (mode : SolverMode) (n : Nat) (dt : ℝ) (we : Nat) (k : LLGBJunction ℝ) : Prop :=
  ∃ r, LLGBJunction.getSolver mode = .ok r ∧ LLGBJunction.loop r dt we 0 n j = .ok () k

/-- Convergence of order `p` towards `m`, for any number of steps within a duration `T` and, with the same constant, for all
runs of a duration up to `T`. -/
def LlgbConverges (j : LLGBJunction ℝ) (mode : SolverMode) (m : Nat → ℝ → CVec ℝ) (T : ℝ) (p : Nat) : Prop :=
  ∃ C r : ℝ, 0 < r ∧
    (∀ (n : Nat) (dt : ℝ), 0 < dt → dt ≤ r → n * dt ≤ T → ∀ (we : Nat) (k : LLGBJunction ℝ),
      LlgbLoopEnds j mode n dt we k → LlgbNear k m (j.time + n * dt) (C * dt ^ p)) ∧
    ∀ dt total wf : ℝ, 0 < dt → dt ≤ r → 0 ≤ total → total ≤ T → ∀ k : LLGBJunction ℝ,
      j.runSimulation total dt wf mode = .ok () k → LlgbNear k m (j.time + ⌊total / dt⌋₊ * dt) (C * dt ^ p)

end Spec
