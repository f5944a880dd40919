import Verif.Model.PyResistance
import Verif.Spec.Resistance

/-!
Specifications for the Python resistance helpers.
-/

namespace Spec

/-- magnetisation of layer `i` at time `t` -/
noncomputable def sampleAt (m : List (List (CVec ℝ))) (i t : Nat) : CVec ℝ := (m.getD i []).getD t ⟨0, 0, 0⟩

/-- longitudinal resistance of layer `i` at time `t` -/
noncomputable def longitudinal (Rx0 AMR SMR : List ℝ) (m : List (List (CVec ℝ))) (i t : Nat) : ℝ :=
  Rx0.getD i 0 + AMR.getD i 0 * (sampleAt m i t).x ^ 2 + SMR.getD i 0 * (sampleAt m i t).y ^ 2

/-- transverse resistance of layer `i` at time `t` -/
noncomputable def transverse (Ry0 AMR AHE SMR : List ℝ) (m : List (List (CVec ℝ))) (l w : List ℝ) (i t : Nat) : ℝ :=
  Ry0.getD i 0 + AHE.getD i 0 * (sampleAt m i t).z / 2 +
    w.getD i 0 / l.getD i 0 * (SMR.getD i 0 - AMR.getD i 0) * (sampleAt m i t).x * (sampleAt m i t).y

/-- the arguments describe `n` layers and `nt` time samples and the lengths are nonzero -/
structure WellShaped (n nt : Nat) (Rx0 Ry0 AMR AHE SMR : List ℝ) (m : List (List (CVec ℝ))) (l w : List ℝ) : Prop where
  rx : Rx0.length = n
  ry : n ≤ Ry0.length
  amr : n ≤ AMR.length
  ahe : n ≤ AHE.length
  smr : n ≤ SMR.length
  mag : n ≤ m.length
  len : n ≤ l.length
  wid : n ≤ w.length
  samples : ∀ row ∈ m, row.length = nt
  nonzero : ∀ x ∈ l, x ≠ 0

end Spec
