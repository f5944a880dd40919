import Verif.Spec.Motion
import Verif.Spec.Groups

/-!
The coupled equations of motion of a reservoir: every element obeys its own Landau-Lifshitz-Gilbert equation, without neighbours, and
is in addition exposed to the dipole field in the reservoir (taken with a minus sign, like all fields of dipoles in a layer), at every
instant.
-/

set_option linter.unusedSectionVars false

namespace Spec

/-- The layer under the additional field `h`. -/
noncomputable def under (h : CVec ℝ) (l : Layer ℝ) : Layer ℝ := { l with HreservedDriver := .ofVec h }

/-- How the dipole field is added up, as a function of the number of elements, the element, the places, the magnetisations, the
saturations and the volume of the element: `reservoirField` or `misalignedField`. -/
abbrev Pairing := Nat → Nat → (Nat → CVec ℝ) → (Nat → CVec ℝ) → (Nat → ℝ) → ℝ → CVec ℝ

/-- What the dipoles add to the effective field of element `i` when element `k` is magnetised along `M k`. -/
noncomputable def fromDipoles (F : Pairing) (n : Nat) (R : Nat → CVec ℝ) (L : Nat → Layer ℝ) (M : Nat → CVec ℝ) (i : Nat) : CVec ℝ :=
  smul (-1) (F n i R M (fun k => (L k).Ms) ((L i).thickness * (L i).cellSurface))

/-- The curves `m i` solve the coupled equations of motion of the `n` elements `L i` at `R i` on an open interval around `[0, T]`,
start from their magnetisations (which have length one), and the equations are regular along them. -/
structure ReservoirTrack (F : Pairing) (n : Nat) (R : Nat → CVec ℝ) (L : Nat → Layer ℝ) (m : Nat → ℝ → CVec ℝ) (T : ℝ) : Prop where
  solves : ∃ lo hi : ℝ, lo < 0 ∧ T < hi ∧ ∀ i < n, ∀ t ∈ Set.Ioo lo hi,
    Slope (m i) (motion (under (fromDipoles F n R L (fun k => m k t) i) (L i)) t (m i t) ⟨0, 0, 0⟩ ⟨0, 0, 0⟩) t
  start : ∀ i < n, m i 0 = (L i).mag
  unit : ∀ i < n, (L i).mag.length = 1
  volume : ∀ i < n, (L i).Ms * (L i).thickness ≠ 0
  free : ∀ i < n, ∀ t, (L i).HreservedDriver.value t = ⟨0, 0, 0⟩
  smooth : ∀ i < n, ∀ t ∈ Set.Icc 0 T, Smooth (L i) t
  noPole : ∀ i < n, ∀ t ∈ Set.Icc 0 T, NoPole (L i) (m i t) ⟨0, 0, 0⟩ ⟨0, 0, 0⟩

/-- The magnetisations of the reservoir differ from those of the curves at time `t` by at most `e`. -/
def ReservoirNear (r : Reservoir ℝ) (m : Nat → ℝ → CVec ℝ) (t e : ℝ) : Prop :=
  ∀ i < r.rows * r.cols, ∀ l, atCell r.layers r.cols i = some l → (l.mag - m i t).length ≤ e

/-- Convergence of order `p` towards `m`, for the loop (whose number of iterations is not limited by the width of a counter) and, with
the same constant, for all runs of a duration up to `T`. -/
def ReservoirConverges (r : Reservoir ℝ) (m : Nat → ℝ → CVec ℝ) (T : ℝ) (p : Nat) : Prop :=
  ∃ C q : ℝ, 0 < q ∧
    (∀ (n : Nat) (dt : ℝ), 0 < dt → dt ≤ q → n * dt ≤ T → ∀ r', Reservoir.loop dt 0 n r = .ok () r' →
      ReservoirNear r' m (n * dt) (C * dt ^ p)) ∧
    ∀ dt total : ℝ, 0 < dt → dt ≤ q → 0 ≤ total → total ≤ T → ∀ r', r.runSimulation total dt = .ok () r' →
      ReservoirNear r' m (⌊total / dt⌋₊ * dt) (C * dt ^ p)

end Spec
