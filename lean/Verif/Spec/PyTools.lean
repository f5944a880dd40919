import Mathlib.Data.Real.Basic
import Mathlib.Data.List.Forall2

/-!
Specifications for the Python helpers.
-/

namespace Spec

/-- `x` is the `k`-th value of `l` in order of size (counted from 0). -/
def OrderStat (l : List ℝ) (k : Nat) (x : ℝ) : Prop :=
  x ∈ l ∧ (l.filter fun y => decide (y < x)).length ≤ k ∧ k < (l.filter fun y => decide (y ≤ x)).length

/-- `m` is the median of `l`: the middle value, or the mean of the two middle values. -/
def IsMedian (l : List ℝ) (m : ℝ) : Prop :=
  if l.length % 2 = 1 then OrderStat l (l.length / 2) m
  else ∃ a b, OrderStat l (l.length / 2 - 1) a ∧ OrderStat l (l.length / 2) b ∧ m = (a + b) / 2

/-- `p` is the point of the product space with the indices `idx`. -/
def PointAt {α : Type} (spaces : List (List α)) (idx : List Nat) (p : List α) : Prop :=
  idx.length = spaces.length ∧ p.length = spaces.length ∧
  ∀ k (hk : k < spaces.length), ∃ i a, idx[k]? = some i ∧ p[k]? = some a ∧ spaces[k][i]? = some a

/-- Roots in the interval, pairwise at least `tol` apart. -/
def Separated (lo hi tol : ℝ) (l : List ℝ) : Prop :=
  (∀ x ∈ l, lo ≤ x ∧ x ≤ hi) ∧ l.Pairwise fun a b => tol ≤ |a - b|

end Spec
