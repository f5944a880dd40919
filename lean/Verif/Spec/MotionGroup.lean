import Verif.Spec.Motion
import Verif.Spec.Groups
import Verif.Spec.Setters

/-!
The coupled equations of motion of a group of junctions: every layer obeys its own Landau-Lifshitz-Gilbert equation, and the layers
that take part in the interaction are in addition exposed to the dipole fields of the other members, at every instant.
-/

set_option linter.unusedSectionVars false

namespace Spec

/-- The layer under the additional field `h`, if it is one of those that take part in the interaction. -/
noncomputable def exposed (id : String) (h : CVec ℝ) (l : Layer ℝ) : Layer ℝ :=
  if Addressed id l then { l with HreservedDriver := .ofVec h } else l

/-- Where the members are (`R`), and which layer (number `top i`, which is `src i`) of member `i` creates the field of the member:
the first one that carries the name the group was made with. -/
structure Layout (g : GroupInteraction ℝ) (R : Nat → CVec ℝ) (top : Nat → Nat) (src : Nat → Layer ℝ) : Prop where
  position : ∀ i < g.junctions.length, g.positions[i]? = some (R i)
  apart : ∀ i < g.junctions.length, ∀ k < g.junctions.length, i ≠ k → Apart (R i) (R k)
  source : ∀ i < g.junctions.length, groupLayer g i (top i) = some (src i) ∧ (src i).id = g.topId ∧
    ∀ p < top i, ∀ l, groupLayer g i p = some l → l.id ≠ g.topId

/-- The field at member `i` of all other members when layer `p` of member `k` has magnetisation `m k p`: `c` times the sum of the
fields of point dipoles. -/
noncomputable def groupField (c : ℝ) (n : Nat) (R : Nat → CVec ℝ) (top : Nat → Nat) (src : Nat → Layer ℝ) (m : Nat → Nat → CVec ℝ)
    (i : Nat) : CVec ℝ :=
  smul c (vsum ((Finset.range n).erase i) fun k => pointDipole (moment ((src k).setMag (m k (top k)))) (R i - R k))

/-- The curves `m i k` (layer `k` of member `i`) solve the coupled equations of motion of the group on an open interval around
`[0, T]`, start from its magnetisations (which have length one), and the equations are regular along them. -/
structure GroupTrack (g : GroupInteraction ℝ) (c : ℝ) (R : Nat → CVec ℝ) (top : Nat → Nat) (src : Nat → Layer ℝ)
    (m : Nat → Nat → ℝ → CVec ℝ) (T : ℝ) : Prop where
  layout : Layout g R top src
  solves : ∃ lo hi : ℝ, lo < 0 ∧ T < hi ∧ ∀ (i k : Nat) (j : Junction ℝ) (l : Layer ℝ), g.junctions[i]? = some j →
    j.layers[k]? = some l → ∀ t ∈ Set.Ioo lo hi,
      Slope (m i k) (motion (exposed g.topId (groupField c g.junctions.length R top src (fun i k => m i k t) i) l) t (m i k t)
        (lower (m i) k t) (upper j.layers.length (m i) k t)) t
  start : ∀ (i k : Nat) (l : Layer ℝ), groupLayer g i k = some l → m i k 0 = l.mag
  unit : ∀ (i k : Nat) (l : Layer ℝ), groupLayer g i k = some l → l.mag.length = 1
  volume : ∀ (i k : Nat) (l : Layer ℝ), groupLayer g i k = some l → l.Ms * l.thickness ≠ 0
  quiet : ∀ (i k : Nat) (l : Layer ℝ), groupLayer g i k = some l → ¬ Noisy l
  smooth : ∀ (i k : Nat) (l : Layer ℝ), groupLayer g i k = some l → ∀ t ∈ Set.Icc 0 T, Smooth l t
  noPole : ∀ (i k : Nat) (j : Junction ℝ) (l : Layer ℝ), g.junctions[i]? = some j → j.layers[k]? = some l → ∀ t ∈ Set.Icc 0 T,
    NoPole l (m i k t) (lower (m i) k t) (upper j.layers.length (m i) k t)

/-- The magnetisations of the group differ from those of the curves at time `t` by at most `e`. -/
def GroupNear (g : GroupInteraction ℝ) (m : Nat → Nat → ℝ → CVec ℝ) (t e : ℝ) : Prop :=
  ∀ (i k : Nat) (l : Layer ℝ), groupLayer g i k = some l → (l.mag - m i k t).length ≤ e

/-- `n` iterations of the loop of a simulation of the group (with the solver it selects, recording every `we` iterations) end in
`g'`. The number of iterations is not limited by the width of the counter of the code. -/
def GroupLoopEnds (g : GroupInteraction ℝ) (n : Nat) (dt : ℝ) (we : Nat) (g' : GroupInteraction ℝ) : Prop :=
  ∃ (rms : List (Junction.Runner × SolverMode)) (js : List (Junction ℝ)) (rm : Junction.Runner × SolverMode),
    Stack.solvers n g.junctions = .ok rms js ∧ rms.getLast? = some rm ∧ GroupInteraction.loop rm.1 dt we 0 n (g.withJunctions js) = .ok () g'

/-- Convergence of order `p` towards `m`, for the loop and, with the same constant, for all runs of a duration up to `T`. -/
def GroupConverges (g : GroupInteraction ℝ) (m : Nat → Nat → ℝ → CVec ℝ) (T : ℝ) (p : Nat) : Prop :=
  ∃ C r : ℝ, 0 < r ∧
    (∀ (n : Nat) (dt : ℝ), 0 < dt → dt ≤ r → n * dt ≤ T → ∀ (we : Nat) (g' : GroupInteraction ℝ),
      GroupLoopEnds g n dt we g' → GroupNear g' m (n * dt) (C * dt ^ p)) ∧
    ∀ dt total wf : ℝ, 0 < dt → dt ≤ r → 0 ≤ total → total ≤ T → ∀ g' : GroupInteraction ℝ,
      g.runSimulation total dt wf = .ok () g' → GroupNear g' m (⌊total / dt⌋₊ * dt) (C * dt ^ p)

end Spec
