import Verif.Spec.Motion
import Verif.Spec.Stacks

/-!
The coupled equations of motion of a stack of junctions: every layer obeys its own Landau-Lifshitz-Gilbert equation under a common
current, which is different in every member because it depends, at every instant, on the magnetisations of the members before it.
-/

set_option linter.unusedSectionVars false

namespace Spec

/-- The layer under the current `d`. -/
def driven (d : ScalarDriver ℝ) (l : Layer ℝ) : Layer ℝ := { l with currentDriver := d }

/-- Layer `p` is the first one with the name. -/
def FirstNamed (id : String) (j : Junction ℝ) (p : Nat) : Prop :=
  ∃ l, j.layers[p]? = some l ∧ l.id = id ∧ ∀ q < p, ∀ l', j.layers[q]? = some l' → l'.id ≠ id

/-- Layer `top i` of member `i` is its free layer; in stacks of two-layer junctions `bot i` is its polariser. -/
structure Roles (s : Stack ℝ) (top bot : Nat → Nat) : Prop where
  free : ∀ (i : Nat) (j : Junction ℝ), s.junctions[i]? = some j → FirstNamed s.topId j (top i)
  fixed : TwoLayers s → ∀ (i : Nat) (j : Junction ℝ), s.junctions[i]? = some j → FirstNamed s.bottomId j (bot i)

/-- The factor on the current in member `i` when layer `k` of member `i` has magnetisation `m i k`. -/
noncomputable def stackFactor (s : Stack ℝ) (top bot : Nat → Nat) (m : Nat → Nat → CVec ℝ) (i : Nat) : ℝ :=
  currentFactor s (fun k => m k (top k)) (fun k => m k (top k))
    (fun k => if TwoLayers s then m k (bot k) else memberRef s s.topId k) i

/-- Layer `k` of member `i`. -/
def stackLayer (s : Stack ℝ) (i k : Nat) : Option (Layer ℝ) := s.junctions[i]?.bind fun j => j.layers[k]?

/-- The curves `m i k` (layer `k` of member `i`) solve the coupled equations of motion of the stack on an open interval around
`[0, T]`, start from its magnetisations (which have length one), and the equations are regular along them. -/
structure StackTrack (s : Stack ℝ) (top bot : Nat → Nat) (m : Nat → Nat → ℝ → CVec ℝ) (T : ℝ) : Prop where
  roles : Roles s top bot
  driver : SmoothKind s.currentDriver
  solves : ∃ lo hi : ℝ, lo < 0 ∧ T < hi ∧ ∀ (i k : Nat) (j : Junction ℝ) (l : Layer ℝ), s.junctions[i]? = some j →
    j.layers[k]? = some l → ∀ t ∈ Set.Ioo lo hi,
      Slope (m i k) (motion (driven (scaled s.currentDriver (stackFactor s top bot (fun i k => m i k t) i) (phaseOf s i)) l) t (m i k t)
        (lower (m i) k t) (upper j.layers.length (m i) k t)) t
  start : ∀ (i k : Nat) (l : Layer ℝ), stackLayer s i k = some l → m i k 0 = l.mag
  unit : ∀ (i k : Nat) (l : Layer ℝ), stackLayer s i k = some l → l.mag.length = 1
  volume : ∀ (i k : Nat) (l : Layer ℝ), stackLayer s i k = some l → l.Ms * l.thickness ≠ 0
  quiet : ∀ (i k : Nat) (l : Layer ℝ), stackLayer s i k = some l → ¬ Noisy l
  smooth : ∀ (i k : Nat) (l : Layer ℝ), stackLayer s i k = some l → ∀ t ∈ Set.Icc 0 T, Smooth (driven s.currentDriver l) t
  noPole : ∀ (i k : Nat) (j : Junction ℝ) (l : Layer ℝ), s.junctions[i]? = some j → j.layers[k]? = some l → ∀ t ∈ Set.Icc 0 T,
    NoPole l (m i k t) (lower (m i) k t) (upper j.layers.length (m i) k t)

/-- The magnetisations of the stack differ from those of the curves at time `t` by at most `e`. -/
def StackNear (s : Stack ℝ) (m : Nat → Nat → ℝ → CVec ℝ) (t e : ℝ) : Prop :=
  ∀ (i k : Nat) (l : Layer ℝ), stackLayer s i k = some l → (l.mag - m i k t).length ≤ e

/-- `n` iterations of the loop of a simulation of the stack (with the solver it selects, recording every `we` iterations) end in
`s'`. The number of iterations is not limited by the width of the counter of the code. -/
def StackLoopEnds (s : Stack ℝ) (n : Nat) (dt : ℝ) (we : Nat) (s' : Stack ℝ) : Prop :=
  ∃ (rms : List (Junction.Runner × SolverMode)) (js : List (Junction ℝ)) (rm : Junction.Runner × SolverMode) (two : Bool),
    Stack.solvers n s.junctions = .ok rms js ∧ rms.getLast? = some rm ∧ (s.withJunctions js).isTwoLayerMemberStack = .ok two ∧
      Stack.loop rm.1 two dt we 0 n (s.withJunctions js) = .ok () s'

/-- Convergence of order `p` towards `m`, for the loop and, with the same constant, for all runs of a duration up to `T`. -/
def StackConverges (s : Stack ℝ) (m : Nat → Nat → ℝ → CVec ℝ) (T : ℝ) (p : Nat) : Prop :=
  ∃ C r : ℝ, 0 < r ∧
    (∀ (n : Nat) (dt : ℝ), 0 < dt → dt ≤ r → n * dt ≤ T → ∀ (we : Nat) (s' : Stack ℝ),
      StackLoopEnds s n dt we s' → StackNear s' m (n * dt) (C * dt ^ p)) ∧
    ∀ dt total wf : ℝ, 0 < dt → dt ≤ r → 0 ≤ total → total ≤ T → ∀ s' : Stack ℝ,
      s.runSimulation total dt wf = .ok () s' → StackNear s' m (⌊total / dt⌋₊ * dt) (C * dt ^ p)

end Spec
