import Mathlib.Data.Real.Basic
import Mathlib.Algebra.BigOperators.Group.Finset.Basic

/-!
Specification of the telegraph noise of domains.
-/

namespace Spec
open Classical

/-- An ensemble of `N` domains with volumes, periods and random numbers. -/
structure Telegraph where
  N : ℕ
  /-- the number of the first step -/
  offset : ℤ
  volume : ℕ → ℝ
  /-- the period of domain `k` at step `i` -/
  period : ℤ → ℕ → ℤ
  initial : ℕ → ℕ → ℝ
  /-- the numbers drawn at step `i`: which of the flipping domains, which component -/
  kick : ℤ → ℕ → ℕ → ℝ
  /-- the background at step `i` -/
  background : ℤ → ℝ

namespace Telegraph
variable (t : Telegraph)

/-- Domain `k` flips in step `r`. -/
def Flips (r k : ℕ) : Prop := t.period (r + t.offset) k = 0 ∨ t.period (r + t.offset) k ∣ (r + t.offset)

/-- Component `a` of domain `k` after `r` steps. -/
noncomputable def value (k a : ℕ) : ℕ → ℝ
  | 0 => t.initial k a
  | r + 1 => if t.Flips r k then t.kick (r + t.offset) (((Finset.range k).filter fun j => t.Flips r j).card) a else value k a r

/-- Component `a` of the volume-weighted sum after `r` steps. -/
noncomputable def weighted (a r : ℕ) : ℝ := ∑ k ∈ Finset.range t.N, t.volume k * t.value k a r

/-- Some domain flips in step `r`. -/
def Event (r : ℕ) : Prop := ∃ k < t.N, t.Flips r k

end Telegraph
end Spec
