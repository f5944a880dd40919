import Verif.Props.NoiseLaw
import Verif.Props.StackAlone
import Verif.Props.StackExamples
import Mathlib.Probability.Moments.Covariance

/-! # C132: layers of a simulation fluctuate independently -/

set_option linter.unusedSectionVars false
set_option linter.unusedSimpArgs false

namespace Spec
open MeasureTheory ProbabilityTheory

/-- Random generators, one per constructed `Layer`: `ξ k n` is draw `n` of generator `k`; all draws of all generators are
independent and standard normal. -/
structure StandardGenerators {Ω : Type} [MeasurableSpace Ω] (P : Measure Ω) (ξ : Nat → Nat → Ω → ℝ) : Prop where
  measurable : ∀ k n, Measurable (ξ k n)
  independent : iIndepFun (fun p : Nat × Nat => ξ p.1 p.2) P
  law : ∀ k n, P.map (ξ k n) = gaussianReal 0 1

/-- The mean of `K` numbers. -/
noncomputable def meanOf (K : Nat) (x : Nat → ℝ) : ℝ := (∑ k ∈ Finset.range K, x k) / K

end Spec

namespace Junction
open Spec Layer MeasureTheory ProbabilityTheory

/-- helper -/
theorem stepNoise_run {r : Runner} (hr : Stochastic r) {dt : ℝ} {N : Nat} {j : Junction ℝ} (hok : (steps r dt 0 N j).res = .ok ())
    {q : Nat} {l : Layer ℝ} (hl : j.layers[q]? = some l) (hT : l.temperatureSet = true) {i : Nat} (hi : i < N) (c : Fin 3) :
    component (stepNoise r dt j q i) c = thermalStd l (i * dt) * l.gauss (l.gpos + (3 * i + c)) := by
  obtain ⟨a, -, ha, -, -⟩ := steps_split hok hi
  exact stepNoise_eq hr ha hl hT c

/-- C132. Layers that were each made by a call of a constructor (`junction.hpp:144-145` seeds a generator for each) have
independent thermal fields: over all layers, all steps of a run and all components, whether the layers sit in one
junction or in several. -/
theorem C132_separate {Ω : Type} [MeasurableSpace Ω] {P : Measure Ω} {ξ : Nat → Nat → Ω → ℝ} (hξ : StandardGenerators P ξ) {r : Runner}
    (hr : Stochastic r) (dt : ℝ) (N K : Nat) (j : Nat → Ω → Junction ℝ) (q : Nat → Nat) (l : Nat → Layer ℝ)
    (hT : ∀ k, (l k).temperatureSet = true) (hj : ∀ k < K, ∀ ω, (j k ω).layers[q k]? = some { l k with gauss := fun n => ξ k n ω })
    (hok : ∀ k < K, ∀ ω, (steps r dt 0 N (j k ω)).res = .ok ()) :
    iIndepFun (fun (s : Fin K × Fin N × Fin 3) ω => component (stepNoise r dt (j s.1 ω) (q s.1) s.2.1) s.2.2) P := by
  have e : (fun (s : Fin K × Fin N × Fin 3) ω => component (stepNoise r dt (j s.1 ω) (q s.1) s.2.1) s.2.2) =
      fun s => (fun x => thermalStd (l s.1) (s.2.1 * dt) * x) ∘ ξ s.1 ((l s.1).gpos + (3 * s.2.1 + s.2.2)) := by
    funext s ω
    rw [stepNoise_run hr (hok _ s.1.2 ω) (hj _ s.1.2 ω) (hT _) s.2.1.2]
    rfl
  have hinj : Function.Injective (fun s : Fin K × Fin N × Fin 3 => ((s.1.1, (l s.1).gpos + (3 * s.2.1.1 + s.2.2.1)) : Nat × Nat)) := by
    rintro ⟨⟨k, hk⟩, ⟨a, ha⟩, ⟨b, hb⟩⟩ ⟨⟨k', hk'⟩, ⟨a', ha'⟩, ⟨b', hb'⟩⟩ h
    simp only [Prod.mk.injEq] at h
    obtain ⟨rfl, h⟩ := h
    simp only [Prod.mk.injEq, Fin.mk.injEq, true_and]
    omega
  rw [e]
  exact (hξ.independent.precomp hinj).comp _ (fun s => by fun_prop)

/-- C132. A layer put into two junctions is copied with its generator (`std::function` is copied by value): both copies see
the very same thermal field in every step. -/
theorem C132_copies {r : Runner} (hr : Stochastic r) {dt : ℝ} {N : Nat} {j j' : Junction ℝ} {q q' : Nat} {l : Layer ℝ}
    (hj : j.layers[q]? = some l) (hj' : j'.layers[q']? = some l) (hT : l.temperatureSet = true)
    (hok : (steps r dt 0 N j).res = .ok ()) (hok' : (steps r dt 0 N j').res = .ok ()) {i : Nat} (hi : i < N) :
    stepNoise r dt j q i = stepNoise r dt j' q' i := by
  have h : ∀ c, component (stepNoise r dt j q i) c = component (stepNoise r dt j' q' i) c := fun c => by
    rw [stepNoise_run hr hok hj hT hi, stepNoise_run hr hok' hj' hT hi]
  have h0 := h 0
  have h1 := h 1
  have h2 := h 2
  revert h0 h1 h2
  rcases stepNoise r dt j q i with ⟨x, y, z⟩
  rcases stepNoise r dt j' q' i with ⟨x', y', z'⟩
  rintro ⟨⟩ ⟨⟩ ⟨⟩
  rfl

/-- helper -/
theorem scaled_normal {Ω : Type} [MeasurableSpace Ω] {P : Measure Ω} {X : Ω → ℝ} (hm : Measurable X) (h : P.map X = gaussianReal 0 1)
    (σ : ℝ) : MemLp (fun ω => σ * X ω) 2 P ∧ Var[fun ω => σ * X ω; P] = σ ^ 2 := by
  have h1 : MemLp X 2 P := by
    have := memLp_id_gaussianReal (μ := 0) (v := 1) 2
    rw [← h] at this
    exact this.comp_measurePreserving ⟨hm, rfl⟩
  refine ⟨h1.const_mul σ, ?_⟩
  rw [variance_const_mul]
  have : Var[X; P] = 1 := by
    rw [← variance_id_map hm.aemeasurable, h, variance_id_gaussianReal]; rfl
  rw [this, mul_one]

/-- C132. Averaging over `K` members made separately with the same parameters divides the variance of the noise by `K`. -/
theorem C132_average {Ω : Type} [MeasurableSpace Ω] {P : Measure Ω} {ξ : Nat → Nat → Ω → ℝ} (hξ : StandardGenerators P ξ) {r : Runner}
    (hr : Stochastic r) (dt : ℝ) (N K : Nat) (hK : 0 < K) (j : Nat → Ω → Junction ℝ) (q : Nat) (l : Layer ℝ)
    (hT : l.temperatureSet = true) (hj : ∀ k < K, ∀ ω, (j k ω).layers[q]? = some { l with gauss := fun n => ξ k n ω })
    (hok : ∀ k < K, ∀ ω, (steps r dt 0 N (j k ω)).res = .ok ()) (i : Nat) (hi : i < N) (c : Fin 3) :
    Var[fun ω => meanOf K (fun k => component (stepNoise r dt (j k ω) q i) c); P] = thermalStd l (i * dt) ^ 2 / K := by
  have hK' : (K : ℝ) ≠ 0 := by positivity
  have e : (fun ω => meanOf K (fun k => component (stepNoise r dt (j k ω) q i) c)) =
      fun ω => (K : ℝ)⁻¹ * (∑ k ∈ Finset.range K, fun ω => thermalStd l (i * dt) * ξ k (l.gpos + (3 * i + c)) ω) ω := by
    funext ω
    unfold meanOf
    rw [Finset.sum_apply, div_eq_inv_mul]
    congr 1
    refine Finset.sum_congr rfl fun k hk => ?_
    exact stepNoise_run hr (hok k (Finset.mem_range.1 hk) ω) (hj k (Finset.mem_range.1 hk) ω) hT hi c
  rw [e, variance_const_mul, IndepFun.variance_sum]
  · rw [Finset.sum_congr rfl fun k _ => (scaled_normal (hξ.measurable k _) (hξ.law k _) _).2]
    simp only [Finset.sum_const, Finset.card_range, nsmul_eq_mul]
    field_simp
  · exact fun k _ => (scaled_normal (hξ.measurable k _) (hξ.law k _) _).1
  · intro k _ k' _ hkk
    have := hξ.independent.indepFun (i := (k, l.gpos + (3 * i + c))) (j := (k', l.gpos + (3 * i + c))) (by simpa using hkk)
    exact this.comp (φ := fun x => thermalStd l (i * dt) * x) (ψ := fun x => thermalStd l (i * dt) * x) (by fun_prop) (by fun_prop)

/-- C132. Averaging over `K` members made from one layer object leaves the variance as it is. -/
theorem C132_average_copies {Ω : Type} [MeasurableSpace Ω] {P : Measure Ω} {ξ : Nat → Ω → ℝ} (hξ : StandardNormals P ξ) {r : Runner}
    (hr : Stochastic r) (dt : ℝ) (N K : Nat) (hK : 0 < K) (j : Nat → Ω → Junction ℝ) (q : Nat) (l : Layer ℝ)
    (hT : l.temperatureSet = true) (hj : ∀ k < K, ∀ ω, (j k ω).layers[q]? = some { l with gauss := fun n => ξ n ω })
    (hok : ∀ k < K, ∀ ω, (steps r dt 0 N (j k ω)).res = .ok ()) (i : Nat) (hi : i < N) (c : Fin 3) :
    Var[fun ω => meanOf K (fun k => component (stepNoise r dt (j k ω) q i) c); P] = thermalStd l (i * dt) ^ 2 := by
  have hK' : (K : ℝ) ≠ 0 := by positivity
  have e : (fun ω => meanOf K (fun k => component (stepNoise r dt (j k ω) q i) c)) =
      fun ω => thermalStd l (i * dt) * ξ (l.gpos + (3 * i + c)) ω := by
    funext ω
    unfold meanOf
    rw [Finset.sum_congr rfl fun k hk => (show _ = thermalStd l (i * dt) * ξ (l.gpos + (3 * i + c)) ω from
      stepNoise_run hr (hok k (Finset.mem_range.1 hk) ω) (hj k (Finset.mem_range.1 hk) ω) hT hi c)]
    simp only [Finset.sum_const, Finset.card_range, nsmul_eq_mul]
    field_simp
  rw [e]
  exact (scaled_normal (hξ.measurable _) (hξ.law _) _).2

/-- helper -/
theorem hot_std : thermalStd hotLayer 0 ≠ 0 := by
  intro h
  refine hot_field ?_
  unfold thermalField
  rw [if_pos (show hotLayer.temperatureSet = true from rfl), h]
  simp [smul]

/-- helper -/
theorem random_ok (N : Nat) (ω : Nat → ℝ) : (steps .eulerHeun 1 0 N (randomJ ω)).res = .ok () := by
  obtain ⟨k, hk⟩ := stochastic_evolve_ok (r := .eulerHeun) (.inr rfl) 1 N 0 (randomJ ω)
    (by simp [randomJ, Sound, Guard, hotLayer, quietLayer, plainOf, Layer.demo])
  rw [steps_eq_evolve, hk]; rfl

/-- C132 refuted for copies: two junctions made from the same layer are constructed without complaint, and their thermal
fields are not independent. -/
theorem C132_independent_refuted : ∃ (Ω : Type) (_ : MeasurableSpace Ω) (P : Measure Ω) (ξ : Nat → Ω → ℝ) (l : Layer ℝ)
    (j j' : Ω → Junction ℝ), StandardNormals P ξ ∧ l.temperatureSet = true ∧
    (∀ ω, Junction.plain [{ l with gauss := fun n => ξ n ω }] = .ok (j ω)) ∧
    (∀ ω, Junction.plain [{ l with gauss := fun n => ξ n ω }] = .ok (j' ω)) ∧
    (∀ ω N, (steps .eulerHeun 1 0 N (j ω)).res = .ok () ∧ (steps .eulerHeun 1 0 N (j' ω)).res = .ok ()) ∧
    ¬ IndepFun (fun ω => component (stepNoise .eulerHeun 1 (j ω) 0 0) 0) (fun ω => component (stepNoise .eulerHeun 1 (j' ω) 0 0) 0) P := by
  refine ⟨_, _, _, _, hotLayer, randomJ, randomJ, normals_exist, rfl, fun ω => ?_, fun ω => ?_, fun ω N => ⟨random_ok N ω, random_ok N ω⟩, ?_⟩
  · simp [plain, randomJ, demoJ]
  · simp [plain, randomJ, demoJ]
  · have e : (fun ω => component (stepNoise .eulerHeun 1 (randomJ ω) 0 0) 0) =
        fun ω : Nat → ℝ => thermalStd hotLayer 0 * ω hotLayer.gpos := by
      funext ω
      have := stepNoise_run (r := .eulerHeun) (.inr rfl) (random_ok 1 ω) (q := 0) (l := { hotLayer with gauss := fun n => ω n }) rfl rfl
        (i := 0) (by omega) 0
      simpa [thermalStd] using this
    rw [e]
    intro h
    obtain ⟨h1, h2⟩ := scaled_normal (normals_exist.measurable hotLayer.gpos) (normals_exist.law _) (thermalStd hotLayer 0)
    have h3 := h.covariance_eq_zero h1 h1
    rw [covariance_self h1.aemeasurable, h2] at h3
    exact hot_std (pow_eq_zero_iff (by norm_num) |>.1 h3)

/-- helper: independent generators exist -/
theorem generators_exist : StandardGenerators (Measure.infinitePi fun _ : Nat × Nat => gaussianReal 0 1) (fun k n ω => ω (k, n)) where
  measurable k n := by fun_prop
  independent := iIndepFun_infinitePi (P := fun _ : Nat × Nat => gaussianReal 0 1) (X := fun _ x => x) (fun _ => measurable_id)
  law k n := (measurePreserving_eval_infinitePi (fun _ : Nat × Nat => gaussianReal 0 1) (k, n)).map_eq

example : (∀ k, ∀ ω : Nat × Nat → ℝ, (randomJ (fun n => ω (k, n))).layers[0]? = some { hotLayer with gauss := fun n => ω (k, n) }) ∧
    (∀ (N k : Nat) (ω : Nat × Nat → ℝ), (steps .eulerHeun 1 0 N (randomJ fun n => ω (k, n))).res = .ok ()) ∧ thermalStd hotLayer 0 ≠ 0 :=
  ⟨fun _ _ => rfl, fun N _ _ => random_ok N _, hot_std⟩

end Junction

namespace Stack
open Spec Junction Layer

/-- C132. Two equal junctions in a stack without coupling and without phase offset stay equal for the whole run, noise
included: a stack of copies shows one junction several times. -/
theorem C132_lockstep (s s' : Stack ℝ) (hr : StackReachable s) (hc : ∀ c ∈ s.couplingStrength, c = 0) (L : Nat)
    (hL : ∀ j ∈ s.junctions, j.layers.length = L) (hp : s.phaseOffset = 0) (total dt wf : ℝ) (hdt : 0 < dt) (ht : 0 ≤ total)
    (h : s.runSimulation total dt wf = .ok () s') (q q' : Nat) (j : Junction ℝ) (hj : s.junctions[q]? = some j)
    (hj' : s.junctions[q']? = some j) : ∃ a b, s'.junctions[q]? = some a ∧ s'.junctions[q']? = some b ∧
      a.layers.map Layer.mag = b.layers.map Layer.mag ∧ a.log = b.log := by
  have hq : ∀ q, phaseOf s q = 0 := fun q => by unfold phaseOf; split <;> simp [hp]
  obtain ⟨a, x, y, a1, a2, a3, a4, a5, -⟩ := C37_independent_partial s s' hr hc L hL total dt wf hdt ht h q j hj
  obtain ⟨b, x', y', b1, b2, b3, b4, b5, -⟩ := C37_independent_partial s s' hr hc L hL total dt wf hdt ht h q' j hj'
  rw [hq] at a2 b2
  rw [a2] at b2
  cases b2
  rw [a3] at b3
  cases b3
  exact ⟨a, b, a1, b1, a4.trans b4.symm, a5.trans b5.symm⟩

example : ∃ s', StackReachable (stackOf .series [oneJ, oneJ]) ∧ (stackOf .series [oneJ, oneJ]).runSimulation 1 1 1 = .ok () s' := by
  obtain ⟨s', h⟩ := stackOf_completes .series [oneJ, oneJ] le_rfl (by simp) [0] rfl .null rfl
  exact ⟨s', stackOf_reachable _ _ le_rfl (by simp [oneJ_reachable]; rfl), h⟩

end Stack
