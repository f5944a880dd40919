import Verif.Spec.PyVector
import Verif.Spec.PyProc

/-!
Specifications for the computations of the front end.
-/

namespace Spec

/-- The axes offered by the front end. -/
def axisNames : List String := ["x", "y", "z", "xy", "xz", "yz"]

/-- 1 if the letter is in the name, else 0 -/
def letterIn (name : String) (c : Char) : ℝ := if c ∈ name.toList then 1 else 0

/-- The vector an axis name stands for: 1 in the components it names. -/
def named (name : String) : CVec ℝ := ⟨letterIn name 'x', letterIn name 'y', letterIn name 'z'⟩

/-- `v` is a multiple of `u`. -/
def Along (v u : CVec ℝ) : Prop := ∃ c : ℝ, v = ⟨c * u.x, c * u.y, c * u.z⟩

/-- `v` is `A` times the unit vector along `u`. -/
def Pointing (v u : CVec ℝ) (A : ℝ) : Prop :=
  v = ⟨A * (u.x / magnitude u), A * (u.y / magnitude u), A * (u.z / magnitude u)⟩

/-- The junction with an empty log and the field `H` in every layer. -/
noncomputable def atField (j : Junction ℝ) (H : CVec ℝ) : Junction ℝ :=
  { j with log := [], logLength := 0, layers := j.layers.map fun l => { l with externalFieldDriver := constantField H } }

/-- The average of the last `n` of the values `f 1`, …, `f N` (of all if there are fewer). -/
noncomputable def averageLast (n N : ℕ) (f : ℕ → ℝ) : ℝ := (∑ i ∈ Finset.range (min n N), f (N - i)) / (min n N : ℕ)

/-- The same for vectors. -/
noncomputable def averageVec (n N : ℕ) (m : ℕ → CVec ℝ) : CVec ℝ :=
  ⟨averageLast n N fun i => (m i).x, averageLast n N fun i => (m i).y, averageLast n N fun i => (m i).z⟩

/-- A hysteresis loop: `J i` is the junction before field `i`, `M i n q` the magnetisation of layer `q` after `n` of the `N` steps in that
field. Every field starts where the one before ended. -/
def Loop (Hs : List (CVec ℝ)) (dt : ℝ) (N : ℕ) (J : ℕ → Junction ℝ) (M : ℕ → ℕ → ℕ → CVec ℝ) : Prop :=
  ∀ (i : ℕ) (H : CVec ℝ), Hs[i]? = some H → Trajectory (atField (J i) H) (J (i + 1)) dt N (M i)

/-- The vectors averaged, each with the share of its area. -/
noncomputable def areaAverage (area : ℕ → ℝ) (N : ℕ) (m : ℕ → CVec ℝ) : CVec ℝ :=
  ⟨(∑ q ∈ Finset.range N, area q * (m q).x) / ∑ q ∈ Finset.range N, area q, (∑ q ∈ Finset.range N, area q * (m q).y) / ∑ q ∈ Finset.range N, area q,
   (∑ q ∈ Finset.range N, area q * (m q).z) / ∑ q ∈ Finset.range N, area q⟩

end Spec
