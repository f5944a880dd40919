import Verif.Spec.Runs
import Mathlib.Analysis.SpecialFunctions.Complex.Log
import Mathlib.Analysis.SpecialFunctions.Trigonometric.Basic

/-!
Specification of the measurement procedures: the state a measurement starts from, its trajectory, weighted averages and spectra.
-/

namespace Spec

/-- The unit vector in the direction of `v`. -/
noncomputable def direction (v : CVec ℝ) : CVec ℝ :=
  ⟨v.x / √(v.x ^ 2 + v.y ^ 2 + v.z ^ 2), v.y / √(v.x ^ 2 + v.y ^ 2 + v.z ^ 2), v.z / √(v.x ^ 2 + v.y ^ 2 + v.z ^ 2)⟩

/-- A constant field. -/
noncomputable def constantField (H : CVec ℝ) : AxialDriver ℝ := ⟨.constantDriver H.x, .constantDriver H.y, .constantDriver H.z⟩

/-- The state a measurement starts from: the junction with an empty log, and in every layer (index `q`) the field `H`, the Oersted
driver `oe` and the magnetisation `m q l`; all else as it was. -/
noncomputable def prepared (j : Junction ℝ) (H : CVec ℝ) (oe : AxialDriver ℝ) (m : ℕ → Layer ℝ → CVec ℝ) : Junction ℝ :=
  { j with log := [], logLength := 0
           layers := j.layers.mapIdx fun q l => { l with externalFieldDriver := constantField H, HoeDriver := oe, mag := m q l } }

/-- The magnetisation a layer starts with: its last one, kicked by `δ` unless the strength is 0. -/
noncomputable def kicked (strength : ℝ) (δ : CVec ℝ) (l : Layer ℝ) : CVec ℝ :=
  if strength = 0 then l.mag else direction ⟨l.mag.x + δ.x, l.mag.y + δ.y, l.mag.z + δ.z⟩

/-- `M n q` is the magnetisation of layer `q` after `n` of the `N` solver steps of length `dt` that lead from `s` to `k`. -/
def Trajectory (s k : Junction ℝ) (dt : ℝ) (N : ℕ) (M : ℕ → ℕ → CVec ℝ) : Prop :=
  ∃ r m s1, s.getSolver .RK4 N = .ok (r, m) s1 ∧ (steps r dt 0 N s1).res = .ok () ∧ k.layers = (steps r dt 0 N s1).st.layers ∧
    ∀ n q, M n q = magOf (steps r dt 0 n s1).st.layers q

/-- The share of a layer in the magnetic moment of the stack. -/
noncomputable def share (ls : List (Layer ℝ)) (l : Layer ℝ) : ℝ := l.thickness * l.Ms / (ls.map fun l => l.thickness * l.Ms).sum

/-- A vector times a number. -/
noncomputable def times (c : ℝ) (v : CVec ℝ) : CVec ℝ := ⟨c * v.x, c * v.y, c * v.z⟩

/-- The average magnetisation of the stack, each layer counted with its share in the moment. -/
noncomputable def averageMag (ls : List (Layer ℝ)) : CVec ℝ :=
  ⟨(ls.map fun l => share ls l * l.mag.x).sum, (ls.map fun l => share ls l * l.mag.y).sum, (ls.map fun l => share ls l * l.mag.z).sum⟩

/-- The sampled trajectory of layer `q`, each sample times the layer's share. -/
noncomputable def sharedSamples (ls : List (Layer ℝ)) (N : ℕ) (M : ℕ → ℕ → CVec ℝ) : List (List (CVec ℝ)) :=
  ls.mapIdx fun q l => (List.range N).map fun i => times (share ls l) (M (i + 1) q)

/-- The component along an axis (x unless y or z). -/
def along : Axis → CVec ℝ → ℝ
  | .zaxis, v => v.z
  | .yaxis, v => v.y
  | _, v => v.x

/-- The samples not before the waiting time. -/
noncomputable def keptSteps (N : ℕ) (dt wait : ℝ) : List ℕ := (List.range N).filter fun i => decide (wait ≤ i * dt)

/-- The amplitude of the signal `x` at bin `k`. -/
noncomputable def amplitude (x : List ℝ) (k : ℕ) : ℝ :=
  ‖∑ i ∈ Finset.range x.length, (x.getD i 0 : ℂ) * Complex.exp (-(2 * Real.pi * Complex.I * (i * k : ℕ) / (x.length : ℕ)))‖

/-- The bins of the lower half of the spectrum of `n` samples up to the frequency `fmax`. -/
noncomputable def bins (n : ℕ) (dt fmax : ℝ) : List ℕ := (List.range (n / 2)).filter fun k => decide ((k : ℝ) / (n * dt) ≤ fmax)

/-- What PIMM transforms: at each of the samples `is` the components of all layers, weighted and added. -/
noncomputable def signal (axis : Axis) (ls : List (Layer ℝ)) (M : ℕ → ℕ → CVec ℝ) (is : List ℕ) : List ℝ :=
  is.map fun i => (ls.mapIdx fun q l => share ls l * along axis (M (i + 1) q)).sum

/-- The contributions of the layers to it. -/
noncomputable def layerSignals (axis : Axis) (ls : List (Layer ℝ)) (M : ℕ → ℕ → CVec ℝ) (is : List ℕ) : List (List ℝ) :=
  ls.mapIdx fun q l => is.map fun i => share ls l * along axis (M (i + 1) q)

/-- The amplitudes of a signal up to the frequency `fmax`. -/
noncomputable def spectrumOf (x : List ℝ) (dt fmax : ℝ) : List ℝ := (bins x.length dt fmax).map (amplitude x)

/-- The frequencies of these bins. -/
noncomputable def freqsOf (n : ℕ) (dt fmax : ℝ) : List ℝ := (bins n dt fmax).map fun k : ℕ => (k : ℝ) / (n * dt)

/-- A driver on one axis (x unless y or z), nothing on the others. -/
noncomputable def onlyAlong : Axis → ScalarDriver ℝ → AxialDriver ℝ
  | .zaxis, d => ⟨.null, .null, d⟩
  | .yaxis, d => ⟨.null, d, .null⟩
  | _, d => ⟨d, .null, .null⟩

/-- The sampled trajectories. -/
noncomputable def samples (ls : List (Layer ℝ)) (N : ℕ) (M : ℕ → ℕ → CVec ℝ) : List (List (CVec ℝ)) :=
  ls.mapIdx fun q _ => (List.range N).map fun i => M (i + 1) q

/-- `y` is the response to `x` of the filter with the transfer function `b / c`, at rest before the first sample:
`Σ_k c_k y_{n-k} = Σ_k b_k x_{n-k}`. -/
def FilterResponse (b c x y : List ℝ) : Prop :=
  y.length = x.length ∧ ∀ n < x.length, ∑ k ∈ Finset.range (n + 1), c.getD k 0 * y.getD (n - k) 0 =
    ∑ k ∈ Finset.range (n + 1), b.getD k 0 * x.getD (n - k) 0

/-- The resistance of a classic junction with the magnetisations `m` and `n`. -/
noncomputable def classicR (Rp Rap : ℝ) (m n : CVec ℝ) : ℝ := Rp + (Rap - Rp) * (1 - (m.x * n.x + m.y * n.y + m.z * n.z)) / 2

/-- The product of the resistance and the negative of a current `sin 2πft`, at `N` samples. -/
noncomputable def diodeSignal (f dt : ℝ) (R : List ℝ) : List ℝ := R.mapIdx fun i r => -Real.sin (2 * Real.pi * f * (i * dt)) * r

end Spec
