import Mathlib.Analysis.SpecialFunctions.Trigonometric.Basic
import Mathlib.Analysis.Complex.Basic
import Mathlib.Analysis.Calculus.Deriv.Basic
import Mathlib.LinearAlgebra.CrossProduct
import Mathlib.Data.Matrix.Mul
import Mathlib.Order.Bounds.Basic

/-!
Specification of Smit-Beljers energies, descents and the LLG in angles, independent of the model: vectors are functions on `Fin 3`
with Mathlib's dot and cross products; a descent is a sequence of positions.
-/

namespace Spec
open Matrix

/-- The unit vector with polar angle `θ` and azimuth `φ`. -/
noncomputable def unit (θ φ : ℝ) : Fin 3 → ℝ := ![Real.sin θ * Real.cos φ, Real.sin θ * Real.sin φ, Real.cos θ]
/-- Its derivative in `θ`: the first tangent vector. -/
noncomputable def eTheta (θ φ : ℝ) : Fin 3 → ℝ := ![Real.cos θ * Real.cos φ, Real.cos θ * Real.sin φ, -Real.sin θ]
/-- The second tangent vector. -/
noncomputable def ePhi (φ : ℝ) : Fin 3 → ℝ := ![-Real.sin φ, Real.cos φ, 0]

/-- Rotation about the z axis. -/
noncomputable def turn (δ : ℝ) (v : Fin 3 → ℝ) : Fin 3 → ℝ :=
  ![v 0 * Real.cos δ - v 1 * Real.sin δ, v 0 * Real.sin δ + v 1 * Real.cos δ, v 2]

/-- The exponentially weighted sum of the first `k` values with decay `β`. -/
noncomputable def decayed (β : ℝ) (g : ℕ → ℝ) (k : ℕ) : ℝ := (1 - β) * ∑ i ∈ Finset.range k, β ^ (k - 1 - i) * g i

/-- Distance of two positions. -/
noncomputable def gapNorm (n : ℕ) (p q : List ℝ) : ℝ := √(∑ c ∈ Finset.range n, (p.getD c 0 - q.getD c 0) ^ 2)

/-- A sequence of positions follows Adam with rate `η` and decays `β₁`, `β₂` for the gradient `grad`. -/
def FollowsAdam (n : ℕ) (grad : List ℝ → List ℝ) (η β₁ β₂ : ℝ) (p : ℕ → List ℝ) : Prop :=
  ∀ k c, c < n →
    (p (k + 1)).getD c 0 = (p k).getD c 0 -
      η * (decayed β₁ (fun i => (grad (p i)).getD c 0) (k + 1) / (1 - β₁ ^ (k + 1))) /
        (√(decayed β₂ (fun i => (grad (p i)).getD c 0 ^ 2) (k + 1) / (1 - β₂ ^ (k + 1))) + 1e-12)

/-- The same for AMSGrad: no bias correction, and the largest second moment so far. -/
def FollowsAmsgrad (n : ℕ) (grad : List ℝ → List ℝ) (η β₁ β₂ : ℝ) (p : ℕ → List ℝ) : Prop :=
  ∀ k c, c < n → ∃ w,
    IsGreatest (insert 0 ((fun j => decayed β₂ (fun i => (grad (p i)).getD c 0 ^ 2) (j + 1)) '' Set.Iic k)) w ∧
    (p (k + 1)).getD c 0 = (p k).getD c 0 -
      η * decayed β₁ (fun i => (grad (p i)).getD c 0) (k + 1) / (√w + 1e-12)

/-- `K` is where a descent with at most `maxSteps` updates and tolerance `tol` stops: before it every update counts and is not below
the tolerance; at it the updates are used up or the next one is below the tolerance. -/
def StopsAt (n : ℕ) (maxSteps : ℤ) (tol : ℝ) (p : ℕ → List ℝ) (K : ℕ) : Prop :=
  (∀ k < K, (k : ℤ) < maxSteps ∧ tol ≤ gapNorm n (p k) (p (k + 1))) ∧
    (maxSteps ≤ K ∨ gapNorm n (p K) (p (K + 1)) < tol)

/-- The energy density of a layer in the field `h` (plus the constant field `d`): Zeeman energy, perpendicular anisotropy `Ks`,
in-plane anisotropy `Kv` along the azimuth `α`, demagnetisation with the diagonal tensor `N`. -/
noncomputable def density (μ Ms Ks Kv α : ℝ) (N h d m : Fin 3 → ℝ) : ℝ :=
  -μ * Ms * (m ⬝ᵥ (h + d)) - Ks * m 2 ^ 2 - Kv * (m ⬝ᵥ ![Real.cos α, Real.sin α, 0]) ^ 2 + μ / 2 * Ms ^ 2 * ∑ i, N i * m i ^ 2

/-- The coupling of two neighbours: bilinear, biquadratic and antisymmetric exchange. -/
noncomputable def coupling (J₁ J₂ : ℝ) (D m₁ m₂ : Fin 3 → ℝ) : ℝ :=
  -(J₁ * (m₁ ⬝ᵥ m₂)) - J₂ * (m₁ ⬝ᵥ m₂) ^ 2 - D ⬝ᵥ (m₁ ⨯₃ m₂)

/-- The dipolar coupling of two neighbours of thickness `t₁`, `t₂` with the tensor `A`. -/
noncomputable def dipoleCoupling (μ Ms₁ Ms₂ t₁ t₂ : ℝ) (A : Matrix (Fin 3) (Fin 3) ℝ) (m₁ m₂ : Fin 3 → ℝ) : ℝ :=
  μ / 2 * Ms₁ * Ms₂ * (t₁ * (m₁ ⬝ᵥ A *ᵥ m₂) + t₂ * (m₂ ⬝ᵥ A *ᵥ m₁))

/-- The derivative in the coordinate `c`, then in the coordinate `c'`. -/
noncomputable def second {ι : Type} [DecidableEq ι] (E : (ι → ℝ) → ℝ) (c c' : ι) (x : ι → ℝ) : ℝ :=
  deriv (fun s => deriv (fun t => E (Function.update (Function.update x c' s) c t)) (Function.update x c' s c)) (x c')

/-- The second derivatives of an energy in two angles. -/
noncomputable def dtt (e : ℝ → ℝ → ℝ) (θ φ : ℝ) : ℝ := deriv (deriv fun a => e a φ) θ
noncomputable def dpp (e : ℝ → ℝ → ℝ) (θ φ : ℝ) : ℝ := deriv (deriv fun b => e θ b) φ
noncomputable def dtp (e : ℝ → ℝ → ℝ) (θ φ : ℝ) : ℝ := deriv (fun b => deriv (fun a => e a b) θ) φ

/-- The Smit-Beljers formula: the square of the resonance frequency of a layer with the energy density `e`. -/
noncomputable def smitBeljers (γ Ms : ℝ) (e : ℝ → ℝ → ℝ) (θ φ : ℝ) : ℝ :=
  γ ^ 2 * (dtt e θ φ * dpp e θ φ - dtp e θ φ ^ 2) / (Ms * Real.sin θ) ^ 2

/-- The Landau-Lifshitz equation with damping `α`. -/
noncomputable def landauLifshitz (γ α : ℝ) (m h : Fin 3 → ℝ) : Fin 3 → ℝ :=
  -(γ / (1 + α ^ 2)) • (m ⨯₃ h + α • (m ⨯₃ (m ⨯₃ h)))

/-- The velocity `v` solves Gilbert's equation with the torque `T` and damping `α`. -/
def Gilbert (α : ℝ) (m T v : Fin 3 → ℝ) : Prop := v = T + α • (m ⨯₃ v)

/-- The amplitudes `δ` with which the linear system with the matrix `J` follows an excitation of amplitude `v` that enters with the
factors `V`, at the angular frequency `ω`. -/
def Responds {n : ℕ} (J : Matrix (Fin n) (Fin n) ℝ) (V : Fin n → ℝ) (v ω : ℝ) (δ : Fin n → ℂ) : Prop :=
  ∀ a, Complex.I * ω * δ a = ∑ b, J a b * δ b + v * V a

/-- The effective field (in tesla) of the energy `density`: minus its gradient in the magnetisation over Ms. -/
noncomputable def effective (μ Ms Ks Kv α : ℝ) (N h d m : Fin 3 → ℝ) : Fin 3 → ℝ :=
  μ • (h + d) + (2 * Ks / Ms * m 2) • ![0, 0, 1] + (2 * Kv / Ms * (m ⬝ᵥ ![Real.cos α, Real.sin α, 0])) • ![Real.cos α, Real.sin α, 0] -
    (μ * Ms) • fun i => N i * m i

end Spec
