import Verif.Props.Stochastic
import Mathlib.Probability.Distributions.Gaussian.Real
import Mathlib.Probability.Independence.InfinitePi

/-! # C115: the law of the thermal field -/

set_option linter.unusedSectionVars false
set_option linter.unusedSimpArgs false

namespace Spec
open MeasureTheory ProbabilityTheory

/-- A component of a vector. -/
def component (v : CVec ℝ) : Fin 3 → ℝ
  | 0 => v.x
  | 1 => v.y
  | 2 => v.z

/-- The thermal field that acts on layer `q` during step `i` of a run from `j`. -/
noncomputable def stepNoise (r : Junction.Runner) (dt : ℝ) (j : Junction ℝ) (q i : Nat) : CVec ℝ :=
  match (steps r dt 0 i j).st.layers[q]? with
  | some l => thermalField l (i * dt)
  | none => ⟨0, 0, 0⟩

/-- Random numbers that are independent and standard normal. -/
structure StandardNormals {Ω : Type} [MeasurableSpace Ω] (P : Measure Ω) (ξ : Nat → Ω → ℝ) : Prop where
  measurable : ∀ n, Measurable (ξ n)
  independent : iIndepFun ξ P
  law : ∀ n, P.map (ξ n) = gaussianReal 0 1

end Spec

namespace Junction
open Spec Layer MeasureTheory ProbabilityTheory

/-- helper -/
theorem stepNoise_eq {r : Runner} (hr : Stochastic r) {dt : ℝ} {j p : Junction ℝ} {i : Nat} (h : steps r dt 0 i j = .ok () p) {q : Nat}
    {l : Layer ℝ} (hl : j.layers[q]? = some l) (hT : l.temperatureSet = true) (c : Fin 3) :
    component (stepNoise r dt j q i) c = thermalStd l (i * dt) * l.gauss (l.gpos + (3 * i + c)) := by
  obtain ⟨l', h1, -, -, h2⟩ := C114_draws hr h hl
  unfold stepNoise
  rw [h]
  simp only [Out.ok, h1, h2 _ hT]
  fin_cases c <;> rfl

/-- C115. With independent standard normal draws, the components of the thermal field of a layer in all the steps of a
run are independent, and each is normal with mean zero and the variance `2 α kB T / (Ms V γ)` of its time. -/
theorem C115_law {Ω : Type} [MeasurableSpace Ω] {P : Measure Ω} {ξ : Nat → Ω → ℝ} (hξ : StandardNormals P ξ) {r : Runner}
    (hr : Stochastic r) (dt : ℝ) (N : Nat) (j : Ω → Junction ℝ) (q : Nat) (l : Layer ℝ) (hT : l.temperatureSet = true)
    (hj : ∀ ω, (j ω).layers[q]? = some { l with gauss := fun n => ξ n ω })
    (hok : ∀ ω, (steps r dt 0 N (j ω)).res = .ok ()) :
    iIndepFun (fun (s : Fin N × Fin 3) ω => component (stepNoise r dt (j ω) q s.1) s.2) P ∧
    ∀ (s : Fin N × Fin 3), P.map (fun ω => component (stepNoise r dt (j ω) q s.1) s.2) =
      gaussianReal 0 (.mk (thermalStd l (s.1 * dt) ^ 2) (sq_nonneg _)) := by
  have e : ∀ s : Fin N × Fin 3, (fun ω => component (stepNoise r dt (j ω) q s.1) s.2) =
      (fun x => thermalStd l (s.1 * dt) * x) ∘ ξ (l.gpos + (3 * s.1 + s.2)) := by
    intro s
    funext ω
    obtain ⟨a, -, ha, -, -⟩ := steps_split (hok ω) s.1.2
    rw [stepNoise_eq hr ha (hj ω) hT]
    rfl
  refine ⟨?_, fun s => ?_⟩
  · have hinj : Function.Injective (fun s : Fin N × Fin 3 => l.gpos + (3 * s.1.1 + s.2.1)) := by
      rintro ⟨⟨a, ha⟩, ⟨b, hb⟩⟩ ⟨⟨a', ha'⟩, ⟨b', hb'⟩⟩ h
      simp only [Prod.mk.injEq, Fin.mk.injEq] at h ⊢
      omega
    rw [show (fun (s : Fin N × Fin 3) ω => component (stepNoise r dt (j ω) q s.1) s.2) =
      fun s => (fun x => thermalStd l (s.1 * dt) * x) ∘ ξ (l.gpos + (3 * s.1 + s.2)) from funext e]
    exact (hξ.independent.precomp hinj).comp _ (fun s => by fun_prop)
  · rw [e, ← Measure.map_map (by fun_prop) (hξ.measurable _), hξ.law, gaussianReal_map_const_mul]
    simp

/-- helper: independent standard normal numbers exist -/
theorem normals_exist : StandardNormals (Measure.infinitePi fun _ : Nat => gaussianReal 0 1) (fun n ω => ω n) where
  measurable n := by fun_prop
  independent := iIndepFun_infinitePi (P := fun _ : Nat => gaussianReal 0 1) (X := fun _ x => x) (fun _ => measurable_id)
  law n := (measurePreserving_eval_infinitePi (fun _ : Nat => gaussianReal 0 1) n).map_eq

/-- helper: a junction of one layer at 300 K with random draws -/
noncomputable def randomJ (ω : Nat → ℝ) : Junction ℝ := { demoJ with layers := [{ hotLayer with gauss := fun n => ω n }] }

example : hotLayer.temperatureSet = true ∧ (∀ ω, (randomJ ω).layers[0]? = some { hotLayer with gauss := fun n => ω n }) ∧
    (∀ (N : Nat) ω, (steps .eulerHeun 1 0 N (randomJ ω)).res = .ok ()) ∧ thermalStd hotLayer 0 ≠ 0 := by
  refine ⟨rfl, fun ω => rfl, fun N ω => ?_, fun h => hot_field ?_⟩
  · obtain ⟨k, hk⟩ := stochastic_evolve_ok (r := .eulerHeun) (.inr rfl) 1 N 0 (randomJ ω)
      (by simp [randomJ, Sound, Guard, hotLayer, quietLayer, plainOf, Layer.demo])
    rw [steps_eq_evolve, hk]; rfl
  · unfold thermalField
    rw [if_pos (show hotLayer.temperatureSet = true from rfl), h]
    simp [smul]

end Junction
