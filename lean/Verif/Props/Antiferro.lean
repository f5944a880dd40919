import Verif.Props.Switching
import Mathlib.Topology.Order.MonotoneConvergence
import Mathlib.Topology.Sequences

set_option linter.unusedSectionVars false

/-!
# C136: an antiferromagnetically coupled pair opens in a field and saturates where theory says

Specification: two layers of equal moment, coupled antiferromagnetically, without anisotropy, in a constant field `F`. Theory: the pair
opens so that the sum of the magnetisations is `2 F / Hs`, up to the saturation field `Hs = 2 A / (Ms d)`, from which on both layers
point along the field. The equation of motion is `Spec.Motion`, to whose solutions runs converge (C111).
-/

namespace Spec
open Layer

/-- The junction holds two layers `a` and `b` of the same moment `μ` (`Ms` times thickness), coupled by the exchange energy `A > 0`
that favours opposite directions, in the same constant field `F`; both are damped, have no anisotropy (neither of the material
nor of the shape) and can be simulated. -/
structure Synthetic (j : Junction ℝ) (a b : Layer ℝ) (F : CVec ℝ) (μ A : ℝ) : Prop where
  layers : j.layers = [a, b]
  passive : Passive j.layers
  momentA : a.Ms * a.thickness = μ
  momentB : b.Ms * b.thickness = μ
  dampingA : 0 < a.damping
  dampingB : 0 < b.damping
  strength : 0 < A
  coupling : a.IECDriverTop.value 0 = -A
  bilinear : a.IECQuadDriverTop.value 0 = 0
  fieldA : staticField a = F
  fieldB : staticField b = F
  isotropicA : a.anisotropyDriver.value 0 = 0 ∧ ∃ n, a.demagTensor = ⟨⟨n, 0, 0⟩, ⟨0, n, 0⟩, ⟨0, 0, n⟩⟩
  isotropicB : b.anisotropyDriver.value 0 = 0 ∧ ∃ n, b.demagTensor = ⟨⟨n, 0, 0⟩, ⟨0, n, 0⟩, ⟨0, 0, n⟩⟩
  straylessA : a.dipoleTop = Tensor.zero
  straylessB : b.dipoleBottom = Tensor.zero
  unit : ∀ l ∈ j.layers, l.mag.length = 1
  quiet : ∀ l ∈ j.layers, ¬ Noisy l
  smooth : ∀ l ∈ j.layers, SmoothDrivers l

/-- The saturation field. -/
noncomputable def saturation (μ A : ℝ) : ℝ := 2 * A / μ

/-- How far the sum of the two magnetisations is from the opened state, in units of field. -/
noncomputable def opening (F : CVec ℝ) (μ A : ℝ) (u v : CVec ℝ) : CVec ℝ := F - smul (saturation μ A / 2) (u + v)

/-- The simulation makes `d` small: for every solver and every tolerance there is a time from which on, with small enough steps, runs
end with magnetisations at which `d` is within the tolerance. -/
def Vanishes (j : Junction ℝ) (d : CVec ℝ → CVec ℝ → ℝ) : Prop :=
  ∀ (mode : SolverMode) (ε : ℝ), 0 < ε → ∃ S : ℝ, ∀ T : ℝ, ∃ r : ℝ, 0 < r ∧ ∀ (n : Nat) (dt : ℝ), 0 < dt → dt ≤ r → S ≤ n * dt →
    n * dt ≤ T → ∀ (we : Nat) (en : Bool) (k : Junction ℝ), LoopEnds j mode n dt we en k →
      ∀ a b : Layer ℝ, k.layers = [a, b] → d a.mag b.mag ≤ ε

end Spec

namespace Antiferro
open Spec Layer Junction Relax

/-! ## One dimension -/

/-- helper: what a falling square and two aligned projections can tend to -/
theorem squeeze {q x y : ℝ → ℝ} {h f : ℝ} (hh : 0 < h) (hf : 0 ≤ f) (hanti : ∀ s t, 0 ≤ s → s ≤ t → q t ≤ q s) (hq : ∀ t, 0 ≤ t → 0 ≤ q t)
    (hx : ∀ t, 0 ≤ t → x t ^ 2 ≤ q t) (hy : ∀ t, 0 ≤ t → y t ^ 2 ≤ q t)
    (h0 : Filter.Tendsto (fun t => q t - x t ^ 2) Filter.atTop (nhds 0)) (h1 : Filter.Tendsto (fun t => q t - y t ^ 2) Filter.atTop (nhds 0))
    (h2 : Filter.Tendsto (fun t => f ^ 2 * q t - (q t + h * (x t + y t)) ^ 2) Filter.atTop (nhds 0)) (hs : f = 0 ∨ ∃ s, 0 ≤ s ∧ q s < f ^ 2) :
    ∃ g, 0 ≤ g ∧ Filter.Tendsto q Filter.atTop (nhds (g ^ 2)) ∧ (∀ s, 0 ≤ s → g ^ 2 ≤ q s) ∧ (g = 0 ∨ g = |f - 2 * h|) := by
  obtain ⟨L, hL⟩ : ∃ L, Filter.Tendsto q Filter.atTop (nhds L) := by
    have ha : Antitone fun t => q (max t 0) := fun s t hst => hanti _ _ (le_max_right _ _) (max_le_max_right 0 hst)
    refine ⟨_, (tendsto_atTop_ciInf ha ⟨0, ?_⟩).congr' ?_⟩
    · rintro _ ⟨t, rfl⟩; exact hq _ (le_max_right _ _)
    · filter_upwards [Filter.eventually_ge_atTop 0] with t ht
      simp [max_eq_left ht]
  have hL0 : 0 ≤ L := ge_of_tendsto hL (by filter_upwards [Filter.eventually_ge_atTop 0] with t ht using hq t ht)
  have hLq : ∀ s, 0 ≤ s → L ≤ q s := fun s hs =>
    le_of_tendsto hL (by filter_upwards [Filter.eventually_ge_atTop s] with t ht using hanti s t hs ht)
  refine ⟨√L, Real.sqrt_nonneg L, by rwa [Real.sq_sqrt hL0], by rwa [Real.sq_sqrt hL0], ?_⟩
  have hB : ∀ {z : ℝ → ℝ}, (∀ t, 0 ≤ t → z t ^ 2 ≤ q t) → ∀ n : ℕ, z n ∈ Set.Icc (-√(q 0)) (√(q 0)) := by
    intro z hz n
    have : z n ^ 2 ≤ q 0 := (hz n n.cast_nonneg).trans (hanti 0 n le_rfl n.cast_nonneg)
    exact abs_le.1 (Real.abs_le_sqrt this)
  obtain ⟨⟨a, b⟩, -, φ, hφ, hab⟩ := (isCompact_Icc.prod isCompact_Icc).tendsto_subseq (x := fun n : ℕ => (x n, y n))
    (fun n => ⟨hB hx n, hB hy n⟩)
  have hφ' : Filter.Tendsto (fun n => (φ n : ℝ)) Filter.atTop Filter.atTop := tendsto_natCast_atTop_atTop.comp hφ.tendsto_atTop
  have hq' := hL.comp hφ'
  have ha : Filter.Tendsto (fun n => x (φ n)) Filter.atTop (nhds a) := (continuous_fst.tendsto _).comp hab
  have hb : Filter.Tendsto (fun n => y (φ n)) Filter.atTop (nhds b) := (continuous_snd.tendsto _).comp hab
  have e0 : L - a ^ 2 = 0 := tendsto_nhds_unique (hq'.sub (ha.pow 2)) (h0.comp hφ')
  have e1 : L - b ^ 2 = 0 := tendsto_nhds_unique (hq'.sub (hb.pow 2)) (h1.comp hφ')
  have e2 : f ^ 2 * L - (L + h * (a + b)) ^ 2 = 0 :=
    tendsto_nhds_unique ((hq'.const_mul (f ^ 2)).sub ((hq'.add ((ha.add hb).const_mul h)).pow 2)) (h2.comp hφ')
  set g := √L with hg
  have hg0 : 0 ≤ g := Real.sqrt_nonneg L
  have hgL : L = g ^ 2 := (Real.sq_sqrt hL0).symm
  have hgf : f = 0 ∨ g < f := by
    refine hs.imp_right fun ⟨s, h0, h1⟩ => lt_of_pow_lt_pow_left₀ 2 hf ?_
    rw [← hgL]; linarith [hLq s h0]
  rw [hgL] at e0 e1 e2
  have ha' : a = g ∨ a = -g := sq_eq_sq_iff_eq_or_eq_neg.1 (by linarith)
  have hb' : b = g ∨ b = -g := sq_eq_sq_iff_eq_or_eq_neg.1 (by linarith)
  by_cases hz : g = 0
  · exact .inl hz
  have hp : 0 < g := lt_of_le_of_ne hg0 (Ne.symm hz)
  refine .inr ?_
  have e3 : f ^ 2 * g ^ 2 = (g ^ 2 + h * (a + b)) ^ 2 := by linarith
  rcases ha' with rfl | rfl <;> rcases hb' with rfl | rfl
  · have : (f - (g + 2 * h)) * (f + (g + 2 * h)) * g ^ 2 = 0 := by linear_combination e3
    have hpos : f + (g + 2 * h) ≠ 0 := by positivity
    have h4 : f - (g + 2 * h) = 0 := by simpa [hpos, hz] using this
    rw [show f - 2 * h = g by linarith, abs_of_pos hp]
  · exfalso
    have : (f - g) * (f + g) * g ^ 2 = 0 := by linear_combination e3
    have hpos : f + g ≠ 0 := by positivity
    have h4 : f - g = 0 := by simpa [hpos, hz] using this
    rcases hgf with e | e <;> linarith
  · exfalso
    have : (f - g) * (f + g) * g ^ 2 = 0 := by linear_combination e3
    have hpos : f + g ≠ 0 := by positivity
    have h4 : f - g = 0 := by simpa [hpos, hz] using this
    rcases hgf with e | e <;> linarith
  · have : (f - (g - 2 * h)) * (f + (g - 2 * h)) * g ^ 2 = 0 := by linear_combination e3
    have h4 : f - (g - 2 * h) = 0 ∨ f + (g - 2 * h) = 0 := by
      have := mul_eq_zero.1 this
      simpa [hz] using this
    rcases h4 with h4 | h4
    · rcases hgf with e | e
      · rw [e, zero_sub, abs_neg, abs_of_pos (by positivity)]; linarith
      · linarith
    · rw [show f - 2 * h = -g by linarith, abs_neg, abs_of_pos hp]

/-! ## Fields and energy -/

theorem tensor_iso (n Ms : ℝ) (m : CVec ℝ) : tensorField ⟨⟨n, 0, 0⟩, ⟨0, n, 0⟩, ⟨0, 0, n⟩⟩ Ms m = smul (Ms / (1257 / 10 ^ 9) * n) m := by
  simp only [tensorField, smul]
  apply CVec.ext <;> simp <;> ring

theorem tensor_none (Ms : ℝ) (m : CVec ℝ) : tensorField Tensor.zero Ms m = ⟨0, 0, 0⟩ := by
  simp [tensorField, Tensor.zero, CVec.zero]

theorem tensor_rest (N : Tensor ℝ) (Ms : ℝ) : tensorField N Ms ⟨0, 0, 0⟩ = ⟨0, 0, 0⟩ := by
  simp [tensorField]

variable {j : Junction ℝ} {a b : Layer ℝ} {F : CVec ℝ} {μ A : ℝ}

theorem half (μ A : ℝ) : saturation μ A / 2 = A / μ := by
  unfold saturation; ring

theorem memA (h : Synthetic j a b F μ A) : a ∈ j.layers := by rw [h.layers]; simp
theorem memB (h : Synthetic j a b F μ A) : b ∈ j.layers := by rw [h.layers]; simp

theorem pairAB (h : Synthetic j a b F μ A) : Mutual a b :=
  h.passive.pairs 0 a b (by rw [h.layers]; rfl) (by rw [h.layers]; rfl)

theorem momentAB (h : Synthetic j a b F μ A) : 0 < μ := by
  rw [← h.momentA]; exact (h.passive.alone a (memA h)).moment

theorem torqueA (h : Synthetic j a b F μ A) (t : ℝ) (u v : CVec ℝ) :
    u.cross (field a t u ⟨0, 0, 0⟩ v) = u.cross (opening F μ A u v) := by
  obtain ⟨hK, n, hn⟩ := h.isotropicA
  rw [field_alone (h.passive.alone a (memA h))]
  simp only [ownField, belowField, h.fieldA, hK, hn, h.straylessA, h.coupling, h.bilinear, tensor_iso, tensor_none, tensor_rest, exchangeField, anisField,
    smul, h.momentA, opening, half]
  apply CVec.ext <;> simp [CVec.cross] <;> ring

theorem torqueB (h : Synthetic j a b F μ A) (t : ℝ) (u v : CVec ℝ) :
    v.cross (field b t v u ⟨0, 0, 0⟩) = v.cross (opening F μ A u v) := by
  obtain ⟨hK, n, hn⟩ := h.isotropicB
  rw [field_alone (h.passive.alone b (memB h))]
  simp only [ownField, belowField, h.fieldB, hK, hn, h.straylessB, ← (pairAB h).iec, ← (pairAB h).quad, h.coupling, h.bilinear, tensor_iso,
    tensor_none, tensor_rest, exchangeField, anisField, smul, h.momentB, opening, half]
  apply CVec.ext <;> simp [CVec.cross] <;> ring

theorem energy_pair (a b : Layer ℝ) (m : Nat → CVec ℝ) :
    stackEnergy [a, b] m = layerEnergy a (m 0) (m 1) + layerEnergy b (m 1) ⟨0, 0, 0⟩ :=
  Fin.sum_univ_two (fun i : Fin 2 => layerEnergy [a, b][i] (m i) (if i.1 + 1 < 2 then m (i + 1) else ⟨0, 0, 0⟩))

/-- C136: up to a constant the energy of the pair is `μ / Hs` times the square of the distance from the opened state. -/
theorem C136_energy (h : Synthetic j a b F μ A) : ∃ c : ℝ, ∀ m : Nat → CVec ℝ, (m 0).length = 1 → (m 1).length = 1 →
    stackEnergy j.layers m = μ / saturation μ A * (opening F μ A (m 0) (m 1)).normSq + c := by
  obtain ⟨hK, n, hn⟩ := h.isotropicA
  obtain ⟨hK', n', hn'⟩ := h.isotropicB
  have hμ := momentAB h
  have hA := h.strength
  refine ⟨a.Ms * a.thickness * (1 / 2 * (a.Ms / (1257 / 10 ^ 9) * n)) + b.Ms * b.thickness * (1 / 2 * (b.Ms / (1257 / 10 ^ 9) * n'))
    - μ / saturation μ A * (F.normSq + 2 * (A / μ) ^ 2), fun m h0 h1 => ?_⟩
  rw [CVec.length_eq, Real.sqrt_eq_one] at h0 h1
  rw [h.layers, energy_pair]
  simp only [layerEnergy, h.fieldA, h.fieldB, hK, hK', hn, hn', h.straylessA, h.coupling, h.bilinear, tensor_iso, tensor_none, tensor_rest,
    h.momentA, h.momentB, opening, half]
  generalize m 0 = u at *
  generalize m 1 = v at *
  have e : μ / saturation μ A = μ ^ 2 / (2 * A) := by unfold saturation; field_simp
  rw [e]
  simp only [CVec.normSq] at h0 h1 ⊢
  simp only [CVec.dot, smul, CVec.sub_x, CVec.sub_y, CVec.sub_z, CVec.add_x, CVec.add_y, CVec.add_z]
  field_simp
  linear_combination (A * μ * a.Ms * 10 ^ 9 * n - 1257 * A ^ 2) * h0 + (A * μ * b.Ms * 10 ^ 9 * n' - 1257 * A ^ 2) * h1

theorem lagrange {u : CVec ℝ} (hu : u.normSq = 1) (G : CVec ℝ) : G.normSq - u.dot G ^ 2 = (u.cross G).normSq := by
  simp only [CVec.normSq, CVec.dot, CVec.cross] at *
  linear_combination -(G.x ^ 2 + G.y ^ 2 + G.z ^ 2) * hu

theorem normSq_nonneg (v : CVec ℝ) : 0 ≤ v.normSq := by
  simp only [CVec.normSq]; positivity

theorem length_nonneg (v : CVec ℝ) : 0 ≤ v.length := by
  rw [CVec.length_eq]; exact Real.sqrt_nonneg _

theorem sq_length (v : CVec ℝ) : v.length ^ 2 = v.normSq := by
  rw [CVec.length_eq, Real.sq_sqrt (normSq_nonneg v)]

theorem sq_unit {v : CVec ℝ} (h : v.length = 1) : v.normSq = 1 := by rwa [CVec.length_eq, Real.sqrt_eq_one] at h

theorem dot_le {u v : CVec ℝ} (hu : u.normSq = 1) (hv : v.normSq = 1) : u.dot v ≤ 1 := by
  simp only [CVec.normSq, CVec.dot] at *
  nlinarith [sq_nonneg (u.x - v.x), sq_nonneg (u.y - v.y), sq_nonneg (u.z - v.z)]

theorem along_unit {F : CVec ℝ} (hf : 0 < F.length) : (smul (1 / F.length) F).normSq = 1 := by
  have h2 := sq_length F
  simp only [CVec.normSq, smul] at *
  field_simp
  linarith

/-- helper: from the saturation field on, the energy above the saturated state bounds the distance from it -/
theorem near_saturation {u v F : CVec ℝ} {μ A : ℝ} (hu : u.normSq = 1) (hv : v.normSq = 1) (hk : 0 < A / μ) (hf : 0 < F.length)
    (hF : 2 * (A / μ) ≤ F.length) : (A / μ * F.length / 2) * (u + v - smul (2 / F.length) F).normSq ≤
      (opening F μ A u v).normSq - (F.length - 2 * (A / μ)) ^ 2 := by
  have hE : F = smul F.length (smul (1 / F.length) F) := by
    apply CVec.ext <;> simp only [smul] <;> field_simp
  have he := along_unit hf
  have h2 : smul (2 / F.length) F = smul 2 (smul (1 / F.length) F) := by
    apply CVec.ext <;> simp only [smul] <;> ring
  rw [h2]
  simp only [opening, half]
  have hP := dot_le hu hv
  generalize A / μ = k at *
  generalize hee : smul (1 / F.length) F = e at *
  generalize F.length = f at *
  subst hE
  simp only [CVec.normSq, CVec.dot, smul, CVec.sub_x, CVec.sub_y, CVec.sub_z, CVec.add_x, CVec.add_y, CVec.add_z] at *
  have h4 : 0 ≤ k * (f / 2 - k) * (2 - 2 * (u.x * v.x + u.y * v.y + u.z * v.z)) :=
    mul_nonneg (mul_nonneg hk.le (by linarith)) (by linarith)
  have : (f * e.x - k * (u.x + v.x)) ^ 2 + (f * e.y - k * (u.y + v.y)) ^ 2 + (f * e.z - k * (u.z + v.z)) ^ 2 - (f - 2 * k) ^ 2
      - k * f / 2 * ((u.x + v.x - 2 * e.x) ^ 2 + (u.y + v.y - 2 * e.y) ^ 2 + (u.z + v.z - 2 * e.z) ^ 2) =
      k * (f / 2 - k) * (2 - 2 * (u.x * v.x + u.y * v.y + u.z * v.z)) := by
    linear_combination (f ^ 2 - 2 * k * f) * he + (k ^ 2 - k * f / 2) * (hu + hv)
  linarith

/-- helper: the sum is near twice a direction only if both are near it -/
theorem near_each {u v F : CVec ℝ} (hu : u.normSq = 1) (hv : v.normSq = 1) (hf : 0 < F.length) :
    (u - smul (1 / F.length) F).normSq ≤ 2 * √((u + v - smul (2 / F.length) F).normSq) := by
  have he := along_unit hf
  have h2 : smul (2 / F.length) F = smul 2 (smul (1 / F.length) F) := by
    apply CVec.ext <;> simp only [smul] <;> ring
  rw [h2]
  generalize smul (1 / F.length) F = e at *
  have hv' := dot_le hv he
  have hc : (2 - (u.dot e + v.dot e)) ^ 2 ≤ (u + v - smul 2 e).normSq := by
    have := lagrange he (u + v - smul 2 e)
    have h3 := normSq_nonneg (e.cross (u + v - smul 2 e))
    have h4 : e.dot (u + v - smul 2 e) = (u.dot e + v.dot e) - 2 := by
      simp only [CVec.normSq, CVec.dot, smul, CVec.sub_x, CVec.sub_y, CVec.sub_z, CVec.add_x, CVec.add_y, CVec.add_z] at *
      linear_combination -2 * he
    rw [h4] at this
    nlinarith
  have h5 := Real.le_sqrt_of_sq_le hc
  have h6 : (u - e).normSq = 2 - 2 * u.dot e := by
    simp only [CVec.normSq, CVec.dot, CVec.sub_x, CVec.sub_y, CVec.sub_z] at *
    linear_combination hu + he
  rw [h6]
  linarith

theorem normSq_smul (c : ℝ) {e : CVec ℝ} (he : e.normSq = 1) : (smul c e).normSq = c ^ 2 := by
  simp only [CVec.normSq, smul] at *
  linear_combination c ^ 2 * he

/-- C136: the open state has the least energy of all; from the saturation field on (where, but at it, nothing is open) both layers along the field have. -/
theorem C136_ground (h : Synthetic j a b F μ A) (m m' : Nat → CVec ℝ) (h0 : (m 0).length = 1) (h1 : (m 1).length = 1)
    (h0' : (m' 0).length = 1) (h1' : (m' 1).length = 1) (hm : opening F μ A (m 0) (m 1) = ⟨0, 0, 0⟩ ∨
      (saturation μ A ≤ F.length ∧ m 0 = smul (1 / F.length) F ∧ m 1 = smul (1 / F.length) F)) :
    stackEnergy j.layers m ≤ stackEnergy j.layers m' := by
  obtain ⟨c, hc⟩ := C136_energy h
  have hμ := momentAB h
  have hA := h.strength
  have hsat : saturation μ A = 2 * (A / μ) := by unfold saturation; ring
  rw [hc m h0 h1, hc m' h0' h1']
  refine add_le_add (mul_le_mul_of_nonneg_left ?_ (by rw [hsat]; positivity)) le_rfl
  rcases hm with e | ⟨hF, e0, e1⟩
  · rw [e]
    simpa [CVec.normSq] using normSq_nonneg (opening F μ A (m' 0) (m' 1))
  · have hk : 0 < A / μ := by positivity
    have hf : 0 < F.length := lt_of_lt_of_le (by rw [hsat]; positivity) hF
    rw [hsat] at hF
    have h2 := near_saturation (sq_unit h0') (sq_unit h1') hk hf hF
    have h3 := mul_nonneg (show 0 ≤ A / μ * F.length / 2 by positivity) (normSq_nonneg (m' 0 + m' 1 - smul (2 / F.length) F))
    have h4 : (opening F μ A (m 0) (m 1)).normSq = (F.length - 2 * (A / μ)) ^ 2 := by
      rw [e0, e1]
      have he := along_unit hf
      rw [← normSq_smul _ he]
      congr 1
      simp only [opening, half]
      apply CVec.ext <;> simp only [smul, CVec.sub_x, CVec.sub_y, CVec.sub_z, CVec.add_x, CVec.add_y, CVec.add_z] <;> field_simp <;> ring
    linarith

/-- C136: the pair is at rest where it is open, or where all of both layers and the field are collinear, and nowhere else. -/
theorem C136_rest (h : Synthetic j a b F μ A) (t : ℝ) (u v : CVec ℝ) :
    (u.cross (field a t u ⟨0, 0, 0⟩ v) = ⟨0, 0, 0⟩ ∧ v.cross (field b t v u ⟨0, 0, 0⟩) = ⟨0, 0, 0⟩) ↔
    opening F μ A u v = ⟨0, 0, 0⟩ ∨ (u.cross F = ⟨0, 0, 0⟩ ∧ v.cross F = ⟨0, 0, 0⟩ ∧ u.cross v = ⟨0, 0, 0⟩) := by
  rw [torqueA h, torqueB h]
  have hF : F = opening F μ A u v + smul (A / μ) (u + v) := by
    simp only [opening, half]
    apply CVec.ext <;> simp [smul]
  generalize hG : opening F μ A u v = G at *
  generalize A / μ = k at *
  subst hF
  simp only [CVec.ext_iff, CVec.cross, smul, CVec.add_x, CVec.add_y, CVec.add_z]
  constructor
  · rintro ⟨⟨p1, p2, p3⟩, q1, q2, q3⟩
    by_cases hz : G.x ^ 2 + G.y ^ 2 + G.z ^ 2 = 0
    · have : G.x = 0 ∧ G.y = 0 ∧ G.z = 0 := by
        refine ⟨?_, ?_, ?_⟩ <;> nlinarith [sq_nonneg G.x, sq_nonneg G.y, sq_nonneg G.z]
      exact .inl this
    · have c1 : u.y * v.z - u.z * v.y = 0 := by
        refine (mul_eq_zero.1 ?_).resolve_left hz
        linear_combination G.x * (u.x * q1 + u.y * q2 + u.z * q3) - (u.x * G.x + u.y * G.y + u.z * G.z) * q1
          + (v.x * G.x + v.y * G.y + v.z * G.z) * p1
      have c2 : u.z * v.x - u.x * v.z = 0 := by
        refine (mul_eq_zero.1 ?_).resolve_left hz
        linear_combination G.y * (u.x * q1 + u.y * q2 + u.z * q3) - (u.x * G.x + u.y * G.y + u.z * G.z) * q2
          + (v.x * G.x + v.y * G.y + v.z * G.z) * p2
      have c3 : u.x * v.y - u.y * v.x = 0 := by
        refine (mul_eq_zero.1 ?_).resolve_left hz
        linear_combination G.z * (u.x * q1 + u.y * q2 + u.z * q3) - (u.x * G.x + u.y * G.y + u.z * G.z) * q3
          + (v.x * G.x + v.y * G.y + v.z * G.z) * p3
      refine .inr ⟨⟨?_, ?_, ?_⟩, ⟨?_, ?_, ?_⟩, c1, c2, c3⟩
      · linear_combination p1 + k * c1
      · linear_combination p2 + k * c2
      · linear_combination p3 + k * c3
      · linear_combination q1 - k * c1
      · linear_combination q2 - k * c2
      · linear_combination q3 - k * c3
  · rintro (⟨g1, g2, g3⟩ | ⟨⟨p1, p2, p3⟩, ⟨q1, q2, q3⟩, c1, c2, c3⟩)
    · simp [g1, g2, g3]
    · refine ⟨⟨?_, ?_, ?_⟩, ?_, ?_, ?_⟩
      · linear_combination p1 - k * c1
      · linear_combination p2 - k * c2
      · linear_combination p3 - k * c3
      · linear_combination q1 + k * c1
      · linear_combination q2 + k * c2
      · linear_combination q3 + k * c3

/-! ## Time -/

/-- helper: how far the field is from the opening, across it -/
theorem gap (F u v : CVec ℝ) (μ A : ℝ) : F.normSq * (opening F μ A u v).normSq -
    ((opening F μ A u v).normSq + A / μ * (u.dot (opening F μ A u v) + v.dot (opening F μ A u v))) ^ 2 =
    (A / μ) ^ 2 * (u.cross (opening F μ A u v) + v.cross (opening F μ A u v)).normSq := by
  have hF : F = opening F μ A u v + smul (A / μ) (u + v) := by
    simp only [opening, half]
    apply CVec.ext <;> simp [smul]
  generalize opening F μ A u v = G at *
  generalize A / μ = k at *
  subst hF
  simp only [CVec.normSq, CVec.dot, CVec.cross, smul, CVec.add_x, CVec.add_y, CVec.add_z]
  ring

theorem track (h : Synthetic j a b F μ A) : ∃ m, ∀ T, 0 ≤ T → Track j m T :=
  C111_global j h.unit (fun l hl => (h.passive.alone l hl).moment.ne') h.quiet h.smooth fun l hl _ _ _ _ _ _ e => by
    rw [(h.passive.alone l hl).noStt] at e; cases e

theorem getA (h : Synthetic j a b F μ A) : j.layers[0]? = some a := by rw [h.layers]; rfl
theorem getB (h : Synthetic j a b F μ A) : j.layers[1]? = some b := by rw [h.layers]; rfl

/-- helper: the square of the opening falls and tends to one of two values -/
theorem limit (h : Synthetic j a b F μ A) {m : Nat → ℝ → CVec ℝ} (hm : ∀ T, 0 ≤ T → Track j m T)
    (hs : F.length = 0 ∨ ∃ s, 0 ≤ s ∧ (opening F μ A (m 0 s) (m 1 s)).normSq < F.length ^ 2) :
    ∃ g, 0 ≤ g ∧ Filter.Tendsto (fun t => (opening F μ A (m 0 t) (m 1 t)).normSq) Filter.atTop (nhds (g ^ 2)) ∧
      (∀ s, 0 ≤ s → g ^ 2 ≤ (opening F μ A (m 0 s) (m 1 s)).normSq) ∧ (g = 0 ∨ g = |F.length - saturation μ A|) := by
  have hμ := momentAB h
  have hA := h.strength
  have hu0 : ∀ t, 0 ≤ t → (m 0 t).normSq = 1 := fun t ht => sq_unit (track_unit (hm t ht) ⟨ht, le_rfl⟩ (getA h))
  have hu1 : ∀ t, 0 ≤ t → (m 1 t).normSq = 1 := fun t ht => sq_unit (track_unit (hm t ht) ⟨ht, le_rfl⟩ (getB h))
  have t0 := C123_settles hm h.passive (getA h) h.dampingA
  have t1 := C123_settles hm h.passive (getB h) h.dampingB
  have l0 : ∀ t, lower m 0 t = ⟨0, 0, 0⟩ := fun _ => rfl
  have l1 : ∀ t, lower m 1 t = m 0 t := fun _ => rfl
  have r0 : ∀ t, upper j.layers.length m 0 t = m 1 t := fun t => by rw [h.layers]; rfl
  have r1 : ∀ t, upper j.layers.length m 1 t = ⟨0, 0, 0⟩ := fun t => by rw [h.layers]; rfl
  simp only [l0, r0, torqueA h] at t0
  simp only [l1, r1, torqueB h] at t1
  have sq : ∀ {v : ℝ → CVec ℝ}, Filter.Tendsto (fun t => (v t).length) Filter.atTop (nhds 0) →
      Filter.Tendsto (fun t => (v t).normSq) Filter.atTop (nhds 0) := by
    intro v hv
    have := hv.pow 2
    simp only [ne_eq, OfNat.ofNat_ne_zero, not_false_eq_true, zero_pow] at this
    refine this.congr fun t => ?_
    rw [CVec.length_eq, Real.sq_sqrt (normSq_nonneg _)]
  have t0 := sq t0
  have t1 := sq t1
  have hsat : saturation μ A = 2 * (A / μ) := by unfold saturation; ring
  rw [hsat]
  refine squeeze (x := fun t => (m 0 t).dot (opening F μ A (m 0 t) (m 1 t))) (y := fun t => (m 1 t).dot (opening F μ A (m 0 t) (m 1 t)))
    (by positivity) (by rw [CVec.length_eq]; positivity) ?_ (fun t _ => normSq_nonneg _) ?_ ?_ ?_ ?_ ?_ hs
  · intro s t hs hst
    obtain ⟨lo, hi, hlo, hhi, hmo⟩ := (hm t (hs.trans hst)).solves
    have hd := C123_decreases h.passive hmo (a := s) (b := t) ⟨by linarith, by linarith⟩ ⟨by linarith, hhi⟩ hst
    obtain ⟨c, hc⟩ := C136_energy h
    have e1 := hc (fun i => m i s) (track_unit (hm s hs) ⟨hs, le_rfl⟩ (getA h)) (track_unit (hm s hs) ⟨hs, le_rfl⟩ (getB h))
    have e2 := hc (fun i => m i t) (track_unit (hm t (hs.trans hst)) ⟨hs.trans hst, le_rfl⟩ (getA h))
      (track_unit (hm t (hs.trans hst)) ⟨hs.trans hst, le_rfl⟩ (getB h))
    beta_reduce at hd e1 e2
    rw [e1, e2] at hd
    have hpos : 0 < μ / saturation μ A := by unfold saturation; positivity
    exact le_of_mul_le_mul_left (by linarith) hpos
  · intro t ht
    have := lagrange (hu0 t ht) (opening F μ A (m 0 t) (m 1 t))
    have := normSq_nonneg ((m 0 t).cross (opening F μ A (m 0 t) (m 1 t)))
    linarith
  · intro t ht
    have := lagrange (hu1 t ht) (opening F μ A (m 0 t) (m 1 t))
    have := normSq_nonneg ((m 1 t).cross (opening F μ A (m 0 t) (m 1 t)))
    linarith
  · refine t0.congr' ?_
    filter_upwards [Filter.eventually_ge_atTop 0] with t ht
    exact (lagrange (hu0 t ht) _).symm
  · refine t1.congr' ?_
    filter_upwards [Filter.eventually_ge_atTop 0] with t ht
    exact (lagrange (hu1 t ht) _).symm
  · have hb := (t0.add t1).const_mul (2 * (A / μ) ^ 2)
    rw [add_zero, mul_zero] at hb
    refine squeeze_zero (fun t => ?_) (fun t => ?_) hb
    · rw [CVec.length_eq, Real.sq_sqrt (normSq_nonneg F), gap]
      exact mul_nonneg (sq_nonneg _) (normSq_nonneg _)
    · rw [CVec.length_eq, Real.sq_sqrt (normSq_nonneg F), gap, mul_assoc, mul_left_comm]
      refine mul_le_mul_of_nonneg_left ?_ (sq_nonneg (A / μ))
      simp only [CVec.normSq, CVec.add_x, CVec.add_y, CVec.add_z]
      nlinarith [sq_nonneg (((m 0 t).cross (opening F μ A (m 0 t) (m 1 t))).x - ((m 1 t).cross (opening F μ A (m 0 t) (m 1 t))).x),
        sq_nonneg (((m 0 t).cross (opening F μ A (m 0 t) (m 1 t))).y - ((m 1 t).cross (opening F μ A (m 0 t) (m 1 t))).y),
        sq_nonneg (((m 0 t).cross (opening F μ A (m 0 t) (m 1 t))).z - ((m 1 t).cross (opening F μ A (m 0 t) (m 1 t))).z)]

theorem vanishes_of (h : Synthetic j a b F μ A) {m : Nat → ℝ → CVec ℝ} (hm : ∀ T, 0 ≤ T → Track j m T) {w : CVec ℝ → CVec ℝ → CVec ℝ}
    (hw : VTame 2 fun x => w (x 0) (x 1)) (hz : Filter.Tendsto (fun t => (w (m 0 t) (m 1 t)).normSq) Filter.atTop (nhds 0)) :
    Vanishes j fun u v => (w u v).length := by
  intro mode ε hε
  obtain ⟨S, hS⟩ := Filter.eventually_atTop.1 (hz.eventually (gt_mem_nhds (show 0 < ε ^ 2 / 2 by positivity)))
  obtain ⟨K, hK, hKn⟩ := near_tame (hw.dot hw)
  refine ⟨S, fun T => ?_⟩
  by_cases hT : 0 ≤ T
  swap
  · refine ⟨1, one_pos, fun n dt hdt _ _ hn => absurd (le_trans (by positivity) hn) hT⟩
  obtain ⟨C, r, hr, hn, -⟩ := C111_all j m T (hm T hT) mode
  have hpos : 0 < |C| + 1 := by positivity
  have hpos2 : 0 < K * |C| + 1 := by positivity
  refine ⟨min r (min (1 / (|C| + 1)) (ε ^ 2 / 2 / (K * |C| + 1))), lt_min hr (lt_min (by positivity) (by positivity)), ?_⟩
  intro n dt hdt hdr hSn hnT we en k hk a' b' hab
  have hlen := loop_length h.quiet hk
  have d1 : dt ≤ r := hdr.trans (min_le_left _ _)
  have d2 : dt ≤ 1 / (|C| + 1) := hdr.trans ((min_le_right _ _).trans (min_le_left _ _))
  have d3 : dt ≤ ε ^ 2 / 2 / (K * |C| + 1) := hdr.trans ((min_le_right _ _).trans (min_le_right _ _))
  rw [le_div_iff₀ hpos] at d2
  rw [le_div_iff₀ hpos2] at d3
  have e0 : 0 ≤ |C| * dt := by positivity
  have htT : (n * dt : ℝ) ∈ Set.Icc 0 T := ⟨by positivity, hnT⟩
  have h2 : j.layers.length = 2 := by rw [h.layers]; rfl
  have key := hKn (mags k) (fun i => m i (n * dt)) (|C| * dt)
    (fun i hi => track_unit (hm T hT) htT (List.getElem?_eq_getElem (h2 ▸ hi))) e0 (by nlinarith) (by
      intro i hi
      rw [mags_get (by rw [hlen, h2]; exact hi)]
      have := hn n dt hdt d1 hnT we en k hk i _ (List.getElem?_eq_getElem (by rw [hlen, h2]; exact hi))
      rw [pow_one] at this
      exact this.trans (mul_le_mul_of_nonneg_right (le_abs_self C) hdt.le))
  have hq := hS (n * dt) hSn
  rw [CVec.normSq_eq_dot] at hq
  have k0 : mags k 0 = a'.mag := by simp [mags, hab]
  have k1 : mags k 1 = b'.mag := by simp [mags, hab]
  beta_reduce at key
  rw [k0, k1] at key
  change (w a'.mag b'.mag).length ≤ ε
  rw [CVec.length_eq, Real.sqrt_le_left hε.le, CVec.normSq_eq_dot]
  have k2 := (abs_le.1 key).2
  refine le_trans (sub_le_iff_le_add.1 k2) ?_
  nlinarith

theorem opening_tame : VTame 2 fun x => opening F μ A (x 0) (x 1) :=
  (VTame.const F).sub (.smul (.const _) ((VTame.var (by norm_num)).add (.var (by norm_num))))

/-- C136, for the equation of motion: a pair that is nearer to the open state than both collinear states, at any time, opens: in units of
the saturation field the sum of the magnetisations follows the field linearly. Without a field every pair that is not
parallel ends antiparallel. -/
theorem C136_opens (h : Synthetic j a b F μ A) {m : Nat → ℝ → CVec ℝ} (hm : ∀ T, 0 ≤ T → Track j m T)
    (hs : F.length = 0 ∨ ∃ s, 0 ≤ s ∧ (opening F μ A (m 0 s) (m 1 s)).length < F.length)
    (hs' : ∃ s, 0 ≤ s ∧ (opening F μ A (m 0 s) (m 1 s)).length < |F.length - saturation μ A|) :
    Filter.Tendsto (fun t => (opening F μ A (m 0 t) (m 1 t)).length) Filter.atTop (nhds 0) := by
  obtain ⟨g, hg, hl, hle, hor⟩ := limit h hm (hs.imp_right fun ⟨s, h0, h1⟩ => ⟨s, h0, by rwa [← sq_length, sq_lt_sq₀ (length_nonneg _) (length_nonneg _)]⟩)
  obtain ⟨s, h0, h1⟩ := hs'
  have hz : g = 0 := by
    refine hor.resolve_right fun e => ?_
    have := hle s h0
    rw [e, ← sq_length, sq_le_sq₀ (abs_nonneg _) (length_nonneg _)] at this
    linarith
  rw [hz] at hl
  have := (Real.continuous_sqrt.tendsto _).comp hl
  simp only [ne_eq, OfNat.ofNat_ne_zero, not_false_eq_true, zero_pow, Real.sqrt_zero] at this
  exact this.congr fun t => (CVec.length_eq _).symm

/-- C136, for the equation of motion: from the saturation field on both layers end along the field. -/
theorem C136_saturates (h : Synthetic j a b F μ A) {m : Nat → ℝ → CVec ℝ} (hm : ∀ T, 0 ≤ T → Track j m T) (hF : saturation μ A ≤ F.length)
    (hs : ∃ s, 0 ≤ s ∧ (opening F μ A (m 0 s) (m 1 s)).length < F.length) {i : Nat} (hi : i < 2) :
    Filter.Tendsto (fun t => (m i t - smul (1 / F.length) F).length) Filter.atTop (nhds 0) := by
  have hμ := momentAB h
  have hA := h.strength
  have hk : 0 < A / μ := by positivity
  have hsat : saturation μ A = 2 * (A / μ) := by unfold saturation; ring
  have hu0 : ∀ t, 0 ≤ t → (m 0 t).normSq = 1 := fun t ht => sq_unit (track_unit (hm t ht) ⟨ht, le_rfl⟩ (getA h))
  have hu1 : ∀ t, 0 ≤ t → (m 1 t).normSq = 1 := fun t ht => sq_unit (track_unit (hm t ht) ⟨ht, le_rfl⟩ (getB h))
  have hf : 0 < F.length := lt_of_lt_of_le (by rw [hsat]; positivity) hF
  obtain ⟨g, hg, hl, hle, hor⟩ := limit h hm (.inr (hs.imp fun s ⟨h0, h1⟩ => ⟨h0, by
    rwa [← sq_length, sq_lt_sq₀ (length_nonneg _) (length_nonneg _)]⟩))
  have hb : ∀ t, 0 ≤ t → (A / μ * F.length / 2) * (m 0 t + m 1 t - smul (2 / F.length) F).normSq ≤
      (opening F μ A (m 0 t) (m 1 t)).normSq - (F.length - saturation μ A) ^ 2 := fun t ht => by
    rw [hsat] at hF ⊢
    exact near_saturation (hu0 t ht) (hu1 t ht) hk hf hF
  have hL : g ^ 2 = (F.length - saturation μ A) ^ 2 := by
    rcases hor with e | e
    · have : (F.length - saturation μ A) ^ 2 ≤ g ^ 2 := ge_of_tendsto hl (by
        filter_upwards [Filter.eventually_ge_atTop 0] with t ht
        have := hb t ht
        have h2 := mul_nonneg (show 0 ≤ A / μ * F.length / 2 by positivity) (normSq_nonneg (m 0 t + m 1 t - smul (2 / F.length) F))
        linarith)
      rw [e] at this ⊢
      have h3 := sq_nonneg (F.length - saturation μ A)
      linarith
    · rw [e, sq_abs]
  have hB : Filter.Tendsto (fun t => (m 0 t + m 1 t - smul (2 / F.length) F).normSq) Filter.atTop (nhds 0) := by
    have h0 : Filter.Tendsto (fun t => ((opening F μ A (m 0 t) (m 1 t)).normSq - (F.length - saturation μ A) ^ 2) / (A / μ * F.length / 2))
        Filter.atTop (nhds 0) := by
      have := (hl.sub_const ((F.length - saturation μ A) ^ 2)).div_const (A / μ * F.length / 2)
      rwa [hL, sub_self, zero_div] at this
    refine tendsto_of_tendsto_of_tendsto_of_le_of_le' tendsto_const_nhds h0 (.of_forall fun t => normSq_nonneg _) ?_
    filter_upwards [Filter.eventually_ge_atTop 0] with t ht
    rw [le_div_iff₀ (by positivity), mul_comm]
    exact hb t ht
  have hR : Filter.Tendsto (fun t => √(2 * √((m 0 t + m 1 t - smul (2 / F.length) F).normSq))) Filter.atTop (nhds 0) := by
    have := (Real.continuous_sqrt.tendsto _).comp (((Real.continuous_sqrt.tendsto _).comp hB).const_mul 2)
    simp only [Real.sqrt_zero, mul_zero] at this
    exact this
  refine tendsto_of_tendsto_of_tendsto_of_le_of_le' tendsto_const_nhds hR (.of_forall fun t => length_nonneg _) ?_
  filter_upwards [Filter.eventually_ge_atTop 0] with t ht
  rw [CVec.length_eq]
  refine Real.sqrt_le_sqrt ?_
  obtain rfl | rfl : i = 0 ∨ i = 1 := by omega
  · exact near_each (hu0 t ht) (hu1 t ht) hf
  · rw [show m 0 t + m 1 t = m 1 t + m 0 t by apply CVec.ext <;> simp [add_comm]]
    exact near_each (hu1 t ht) (hu0 t ht) hf

theorem startA (h : Synthetic j a b F μ A) {m : Nat → ℝ → CVec ℝ} (hm : ∀ T, 0 ≤ T → Track j m T) : m 0 0 = a.mag :=
  (hm 0 le_rfl).start 0 a (getA h)

theorem startB (h : Synthetic j a b F μ A) {m : Nat → ℝ → CVec ℝ} (hm : ∀ T, 0 ≤ T → Track j m T) : m 1 0 = b.mag :=
  (hm 0 le_rfl).start 1 b (getB h)

theorem smul_sub_tame (c : CVec ℝ) : VTame 2 (fun x => x 0 - c) ∧ VTame 2 fun x => x 1 - c :=
  ⟨(VTame.var (by norm_num)).sub (.const c), (VTame.var (by norm_num)).sub (.const c)⟩

theorem sq_tendsto {v : ℝ → CVec ℝ} (hv : Filter.Tendsto (fun t => (v t).length) Filter.atTop (nhds 0)) :
    Filter.Tendsto (fun t => (v t).normSq) Filter.atTop (nhds 0) := by
  have := hv.pow 2
  simp only [ne_eq, OfNat.ofNat_ne_zero, not_false_eq_true, zero_pow, sq_length] at this
  exact this

/-- C136, linear magnetisation curve: simulated with any solver, a pair that starts nearer to the open state than both collinear states opens:
`m₁ + m₂ = 2 F / Hs`. -/
theorem C136_linear (h : Synthetic j a b F μ A) (h1 : (opening F μ A a.mag b.mag).length < F.length ∨ F.length = 0)
    (h2 : (opening F μ A a.mag b.mag).length < |F.length - saturation μ A|) : Vanishes j fun u v => (opening F μ A u v).length := by
  obtain ⟨m, hm⟩ := track h
  rw [← startA h hm, ← startB h hm] at h1 h2
  exact vanishes_of h hm opening_tame (sq_tendsto (C136_opens h hm (h1.symm.imp_right fun e => ⟨0, le_rfl, e⟩) ⟨0, le_rfl, h2⟩))

/-- C136, saturation: simulated with any solver, in a field from `Hs` on a pair that starts nearer to the open state than antiparallel layers
ends with both layers along the field. -/
theorem C136_saturated (h : Synthetic j a b F μ A) (hF : saturation μ A ≤ F.length)
    (h1 : (opening F μ A a.mag b.mag).length < F.length) :
    Vanishes j (fun u _ => (u - smul (1 / F.length) F).length) ∧ Vanishes j fun _ v => (v - smul (1 / F.length) F).length := by
  obtain ⟨m, hm⟩ := track h
  rw [← startA h hm, ← startB h hm] at h1
  exact ⟨vanishes_of (w := fun u _ => u - smul (1 / F.length) F) h hm (smul_sub_tame _).1
      (sq_tendsto (C136_saturates h hm hF ⟨0, le_rfl, h1⟩ (i := 0) (by norm_num))),
    vanishes_of (w := fun _ v => v - smul (1 / F.length) F) h hm (smul_sub_tame _).2
      (sq_tendsto (C136_saturates h hm hF ⟨0, le_rfl, h1⟩ (i := 1) (by norm_num)))⟩

/-! ## Antiparallel layers across the field -/

/-- helper: a pair that is not at rest comes nearer to the open state -/
theorem falls (h : Synthetic j a b F μ A) {m : Nat → ℝ → CVec ℝ} (hm : ∀ T, 0 ≤ T → Track j m T)
    (hr : (m 0 0).cross (opening F μ A (m 0 0) (m 1 0)) ≠ ⟨0, 0, 0⟩) :
    ∃ s, 0 ≤ s ∧ (opening F μ A (m 0 s) (m 1 s)).normSq < (opening F μ A (m 0 0) (m 1 0)).normSq := by
  obtain ⟨lo, hi, hlo, hhi, hmo⟩ := (hm 0 le_rfl).solves
  have hd := C123_rate h.passive hmo (t := 0) ⟨hlo, hhi⟩
  have hpos : 0 < stackLoss j.layers m 0 := by
    have hlt : 0 < j.layers.length := by rw [h.layers]; simp
    have := Finset.single_le_sum (f := fun i : Fin j.layers.length => loss j.layers[i] (m i 0) (field j.layers[i] 0 (m i 0) (lower m i 0)
      (upper j.layers.length m i 0))) (fun i _ => loss_nonneg (h.passive.alone _ (List.getElem_mem i.2)) _ _) (Finset.mem_univ ⟨0, hlt⟩)
    refine lt_of_lt_of_le ?_ this
    have e0 : j.layers[0] = a := by simp [h.layers]
    have r0 : upper j.layers.length m 0 0 = m 1 0 := by rw [h.layers]; rfl
    change (0 : ℝ) < loss j.layers[0] (m 0 0) (field j.layers[0] 0 (m 0 0) ⟨0, 0, 0⟩ (upper j.layers.length m 0 0))
    rw [e0, r0]
    unfold loss
    rw [torqueA h]
    have hn : 0 < ((m 0 0).cross (opening F μ A (m 0 0) (m 1 0))).normSq := by
      refine lt_of_le_of_ne (normSq_nonneg _) fun e => hr ?_
      generalize (m 0 0).cross (opening F μ A (m 0 0) (m 1 0)) = w at *
      simp only [CVec.normSq] at e
      apply CVec.ext <;> simp only <;> nlinarith [sq_nonneg w.x, sq_nonneg w.y, sq_nonneg w.z]
    have := h.dampingA
    have := (h.passive.alone a (memA h)).moment
    positivity
  have hs := hasDerivAt_iff_tendsto_slope.1 hd
  have hs := hs.eventually (gt_mem_nhds (neg_lt_zero.2 hpos))
  have hs := hs.filter_mono (nhdsWithin_mono (0 : ℝ) fun x (hx : 0 < x) => ne_of_gt hx : nhdsWithin (0 : ℝ) (Set.Ioi 0) ≤ nhdsWithin 0 {0}ᶜ)
  obtain ⟨s, hs1, hs2⟩ := (hs.and self_mem_nhdsWithin).exists
  have hs2 : 0 < s := hs2
  refine ⟨s, hs2.le, ?_⟩
  rw [slope_def_field, sub_zero, div_lt_iff₀ hs2, zero_mul, sub_neg] at hs1
  obtain ⟨c, hc⟩ := C136_energy h
  have e1 := hc (fun i => m i s) (track_unit (hm s hs2.le) ⟨hs2.le, le_rfl⟩ (getA h)) (track_unit (hm s hs2.le) ⟨hs2.le, le_rfl⟩ (getB h))
  have e2 := hc (fun i => m i 0) (track_unit (hm 0 le_rfl) ⟨le_rfl, le_rfl⟩ (getA h)) (track_unit (hm 0 le_rfl) ⟨le_rfl, le_rfl⟩ (getB h))
  rw [e1, e2] at hs1
  have hq : 0 < μ / saturation μ A := by
    have := momentAB h
    have := h.strength
    unfold saturation; positivity
  exact lt_of_mul_lt_mul_left (by linarith) hq.le

/-- helper: half a turn about a direction -/
noncomputable def turn (e x : CVec ℝ) : CVec ℝ := smul (2 * e.dot x) e - x

theorem turn_cross {e : CVec ℝ} (he : e.normSq = 1) (x y : CVec ℝ) : turn e (x.cross y) = (turn e x).cross (turn e y) := by
  simp only [CVec.normSq] at he
  apply CVec.ext <;>
    simp only [turn, smul, CVec.cross, CVec.dot, CVec.sub_x, CVec.sub_y, CVec.sub_z]
  · linear_combination 2 * (x.y * y.z - x.z * y.y) * he
  · linear_combination 2 * (x.z * y.x - x.x * y.z) * he
  · linear_combination 2 * (x.x * y.y - x.y * y.x) * he

theorem turn_lin (e x y : CVec ℝ) (c d : ℝ) : turn e (smul c x - smul d y) = smul c (turn e x) - smul d (turn e y) := by
  apply CVec.ext <;> simp [turn, smul, CVec.dot] <;> ring

theorem turn_opening {e : CVec ℝ} (he : e.normSq = 1) (f : ℝ) (hF : F = smul f e) (u v : CVec ℝ) :
    opening F μ A (turn e v) (turn e u) = turn e (opening F μ A u v) := by
  subst hF
  simp only [CVec.normSq] at he
  apply CVec.ext <;>
    simp only [opening, turn, smul, CVec.dot, CVec.sub_x, CVec.sub_y, CVec.sub_z, CVec.add_x, CVec.add_y, CVec.add_z]
  · linear_combination -2 * f * e.x * he
  · linear_combination -2 * f * e.y * he
  · linear_combination -2 * f * e.z * he

/-- helper: the motion of a layer without spin torques -/
noncomputable def swing (α : ℝ) (m G : CVec ℝ) : CVec ℝ :=
  smul (-(220880 / (1 + α ^ 2))) (m.cross G) - smul (220880 / (1 + α ^ 2) * α) (m.cross (m.cross G))

theorem motion_swing {l : Layer ℝ} (h : Alone l) {t : ℝ} {m lo up G : CVec ℝ} (hG : m.cross (field l t m lo up) = m.cross G) :
    motion l t m lo up = swing l.damping m G := by
  simp only [motion, spinTorque, h.noStt, h.noSot, hG]
  apply CVec.ext <;> simp [swing, smul] <;> ring

theorem turn_swing {e : CVec ℝ} (he : e.normSq = 1) (α : ℝ) (m G : CVec ℝ) : turn e (swing α m G) = swing α (turn e m) (turn e G) := by
  simp only [swing, turn_lin, turn_cross he]

theorem slope_turn (e : CVec ℝ) {c : ℝ → CVec ℝ} {v : CVec ℝ} {t : ℝ} (h : Slope c v t) : Slope (fun s => turn e (c s)) (turn e v) t := by
  have hd := (slope_dot (slope_const e t) h).const_mul 2
  obtain ⟨h1, h2, h3⟩ := h
  refine ⟨((hd.mul_const e.x).sub h1).congr_deriv ?_, ((hd.mul_const e.y).sub h2).congr_deriv ?_, ((hd.mul_const e.z).sub h3).congr_deriv ?_⟩ <;>
    simp [turn, smul, CVec.dot]

/-- helper: two equally damped layers that start antiparallel across the field stay mirror images of each other -/
theorem mirror (h : Synthetic j a b F μ A) (hd : a.damping = b.damping) {e : CVec ℝ} (he : e.normSq = 1) {f : ℝ} (hF : F = smul f e)
    (h0 : b.mag = turn e a.mag) (h1 : a.mag = turn e b.mag) {m : Nat → ℝ → CVec ℝ} (hm : ∀ T, 0 ≤ T → Track j m T) {t : ℝ} (ht : 0 ≤ t) :
    m 1 t = turn e (m 0 t) := by
  set m' : Nat → ℝ → CVec ℝ := fun i s => if i = 0 then turn e (m 1 s) else turn e (m 0 s) with hm'
  have noStt : ∀ l ∈ j.layers, ¬ l.includeSTT = true := fun l hl => by rw [(h.passive.alone l hl).noStt]; simp
  have hT : Track j m' t := by
    have H := hm t ht
    refine ⟨?_, ?_, H.unit, H.volume, H.quiet, H.smooth, fun i l hl s hs hh => absurd hh (noStt l (List.mem_of_getElem? hl))⟩
    · obtain ⟨lo, hi, hlo, hhi, hmo⟩ := H.solves
      refine ⟨lo, hi, hlo, hhi, fun i l hl s hs => ?_⟩
      have r : ∀ (m : Nat → ℝ → CVec ℝ), upper j.layers.length m 0 s = m 1 s ∧ upper j.layers.length m 1 s = ⟨0, 0, 0⟩ := fun m => by
        rw [h.layers]; exact ⟨rfl, rfl⟩
      have lw : ∀ (m : Nat → ℝ → CVec ℝ), lower m 0 s = ⟨0, 0, 0⟩ ∧ lower m 1 s = m 0 s := fun m => ⟨rfl, rfl⟩
      have hA := hmo 0 a (getA h) s hs
      have hB := hmo 1 b (getB h) s hs
      rw [(lw m).1, (r m).1, motion_swing (h.passive.alone a (memA h)) (torqueA h s _ _)] at hA
      rw [(lw m).2, (r m).2, motion_swing (h.passive.alone b (memB h)) (torqueB h s _ _)] at hB
      match i, hl with
      | 0, hl =>
        obtain rfl : a = l := by simpa [h.layers] using hl
        rw [(lw m').1, (r m').1, motion_swing (h.passive.alone a (memA h)) (torqueA h s _ _)]
        have := slope_turn e hB
        rw [turn_swing he, ← turn_opening he f hF, ← hd] at this
        exact this
      | 1, hl =>
        obtain rfl : b = l := by simpa [h.layers] using hl
        rw [(lw m').2, (r m').2, motion_swing (h.passive.alone b (memB h)) (torqueB h s _ _)]
        have := slope_turn e hA
        rw [turn_swing he, ← turn_opening he f hF, hd] at this
        exact this
      | i + 2, hl => simp [h.layers] at hl
    · intro i l hl
      match i, hl with
      | 0, hl =>
        obtain rfl : a = l := by simpa [h.layers] using hl
        change turn e (m 1 0) = _
        rw [startB h hm, ← h1]
      | 1, hl =>
        obtain rfl : b = l := by simpa [h.layers] using hl
        change turn e (m 0 0) = _
        rw [startA h hm, ← h0]
      | i + 2, hl => simp [h.layers] at hl
  exact C111_unique j m m' t (hm t ht) hT 1 (by rw [h.layers]; simp) t ⟨ht, le_rfl⟩

theorem torque_tends (h : Synthetic j a b F μ A) {m : Nat → ℝ → CVec ℝ} (hm : ∀ T, 0 ≤ T → Track j m T) :
    Filter.Tendsto (fun t => ((m 0 t).cross (opening F μ A (m 0 t) (m 1 t))).normSq) Filter.atTop (nhds 0) := by
  have t0 := C123_settles hm h.passive (getA h) h.dampingA
  have l0 : ∀ t, lower m 0 t = ⟨0, 0, 0⟩ := fun _ => rfl
  have r0 : ∀ t, upper j.layers.length m 0 t = m 1 t := fun t => by rw [h.layers]; rfl
  simp only [l0, r0, torqueA h] at t0
  exact sq_tendsto t0

theorem continuous_dot (h : Synthetic j a b F μ A) {m : Nat → ℝ → CVec ℝ} (hm : ∀ T, 0 ≤ T → Track j m T) (e : CVec ℝ) {t : ℝ} (ht : 0 ≤ t) :
    ContinuousAt (fun s => e.dot (m 0 s)) t := by
  obtain ⟨lo, hi, hlo, hhi, hmo⟩ := (hm t ht).solves
  exact (slope_dot (slope_const e t) (hmo 0 a (getA h) t ⟨by linarith, hhi⟩)).continuousAt

/-- helper: mirror images open along the field -/
theorem mirror_opening {e : CVec ℝ} (f : ℝ) (hF : F = smul f e) (u : CVec ℝ) :
    opening F μ A u (turn e u) = smul (f - saturation μ A * e.dot u) e := by
  subst hF
  apply CVec.ext <;> simp [opening, turn, smul] <;> ring

/-- C136, spin flop: two equally damped layers that start antiparallel across the field open symmetrically, simulated with any solver. Up to the saturation
field `m₁ + m₂ = 2 F / Hs`, the linear magnetisation curve; from the saturation field on both layers end along the field. -/
theorem C136_flop (h : Synthetic j a b F μ A) (hd : a.damping = b.damping) (hanti : b.mag = ⟨-a.mag.x, -a.mag.y, -a.mag.z⟩)
    (hacross : a.mag.dot F = 0) (hF : F.length ≠ 0) :
    (F.length ≤ saturation μ A → Vanishes j fun u v => (opening F μ A u v).length) ∧
    (saturation μ A ≤ F.length →
      Vanishes j (fun u _ => (u - smul (1 / F.length) F).length) ∧ Vanishes j fun _ v => (v - smul (1 / F.length) F).length) := by
  obtain ⟨m, hm⟩ := track h
  have hf : 0 < F.length := lt_of_le_of_ne (length_nonneg F) hF.symm
  have he := along_unit hf
  have hμ := momentAB h
  have hA := h.strength
  have hsat : 0 < saturation μ A := by unfold saturation; positivity
  have hE : F = smul F.length (smul (1 / F.length) F) := by
    apply CVec.ext <;> simp only [smul] <;> field_simp
  have hdot : (smul (1 / F.length) F).dot a.mag = 0 := by
    have : (smul (1 / F.length) F).dot a.mag = 1 / F.length * a.mag.dot F := by simp only [CVec.dot, smul]; ring
    rw [this, hacross, mul_zero]
  have hdot' : (smul (1 / F.length) F).dot b.mag = 0 := by
    rw [hanti]
    simp only [CVec.dot] at *
    linarith
  have hb : b.mag = turn (smul (1 / F.length) F) a.mag := by
    rw [turn, hdot, hanti]
    apply CVec.ext <;> simp [smul]
  have ha : a.mag = turn (smul (1 / F.length) F) b.mag := by
    rw [turn, hdot', hanti]
    apply CVec.ext <;> simp [smul]
  have hG0 : opening F μ A (m 0 0) (m 1 0) = F := by
    rw [startA h hm, startB h hm, hanti]
    apply CVec.ext <;> simp [opening, smul]
  have hstart : ∃ s, 0 ≤ s ∧ (opening F μ A (m 0 s) (m 1 s)).length < F.length := by
    obtain ⟨s, h0, h1⟩ := falls h hm (by
      rw [hG0, startA h hm]
      intro hz
      have h2 := lagrange (sq_unit (h.unit a (memA h))) F
      rw [hz, hacross, ← sq_length] at h2
      simp [CVec.normSq] at h2
      exact hF h2)
    rw [hG0, ← sq_length, ← sq_length, sq_lt_sq₀ (length_nonneg _) (length_nonneg _)] at h1
    exact ⟨s, h0, h1⟩
  have sat : saturation μ A ≤ F.length →
      Vanishes j (fun u _ => (u - smul (1 / F.length) F).length) ∧ Vanishes j fun _ v => (v - smul (1 / F.length) F).length := fun hs =>
    ⟨vanishes_of (w := fun u _ => u - smul (1 / F.length) F) h hm (smul_sub_tame _).1
      (sq_tendsto (C136_saturates h hm hs hstart (i := 0) (by norm_num))),
    vanishes_of (w := fun _ v => v - smul (1 / F.length) F) h hm (smul_sub_tame _).2
      (sq_tendsto (C136_saturates h hm hs hstart (i := 1) (by norm_num)))⟩
  refine ⟨fun hle => vanishes_of h hm opening_tame ?_, sat⟩
  obtain ⟨g, hg, hl, hlb, hor⟩ := limit h hm (.inr (hstart.imp fun s ⟨h0, h1⟩ => ⟨h0, by
    rwa [← sq_length, sq_lt_sq₀ (length_nonneg _) (length_nonneg _)]⟩))
  suffices hz : g = 0 by rwa [hz, zero_pow two_ne_zero] at hl
  refine hor.elim id fun hgf => ?_
  rw [abs_sub_comm, abs_of_nonneg (sub_nonneg.2 hle)] at hgf
  by_contra hne
  have hgp : 0 < g := lt_of_le_of_ne hg (Ne.symm hne)
  have tq := torque_tends h hm
  have hmir := fun t (ht : 0 ≤ t) => mirror h hd he hE hb ha hm ht
  generalize smul (1 / F.length) F = e at *
  have hq : ∀ t, 0 ≤ t → (opening F μ A (m 0 t) (m 1 t)).normSq = (F.length - saturation μ A * e.dot (m 0 t)) ^ 2 := fun t ht => by
    rw [hmir t ht, mirror_opening _ hE, normSq_smul _ he]
  have hnz : ∀ t, 0 ≤ t → F.length - saturation μ A * e.dot (m 0 t) ≠ 0 := fun t ht e0 => by
    have := hlb t ht
    rw [hq t ht, e0] at this
    nlinarith
  have hpos : ∀ t, 0 ≤ t → 0 < F.length - saturation μ A * e.dot (m 0 t) := by
    intro t ht
    by_contra hneg
    have hc : ContinuousOn (fun s => F.length - saturation μ A * e.dot (m 0 s)) (Set.Icc 0 t) := fun s hs =>
      (continuousAt_const.sub (continuousAt_const.mul (continuous_dot h hm e hs.1))).continuousWithinAt
    have hmem : (0 : ℝ) ∈ Set.Icc (F.length - saturation μ A * e.dot (m 0 t)) (F.length - saturation μ A * e.dot (m 0 0)) := by
      rw [startA h hm, hdot]
      exact ⟨not_lt.1 hneg, by simpa using hf.le⟩
    obtain ⟨s, hs, hs0⟩ := intermediate_value_Icc' ht hc hmem
    exact hnz s hs.1 hs0
  have hlim : Filter.Tendsto (fun t => F.length - saturation μ A * e.dot (m 0 t)) Filter.atTop (nhds g) := by
    have := (Real.continuous_sqrt.tendsto _).comp hl
    rw [Real.sqrt_sq hg] at this
    refine this.congr' ?_
    filter_upwards [Filter.eventually_ge_atTop 0] with t ht
    simp only [Function.comp]
    rw [hq t ht, Real.sqrt_sq (hpos t ht).le]
  have hs : Filter.Tendsto (fun t => e.dot (m 0 t)) Filter.atTop (nhds ((F.length - g) / saturation μ A)) := by
    have := (hlim.const_sub F.length).div_const (saturation μ A)
    refine this.congr fun t => ?_
    field_simp
    ring
  have hz := (((hs.pow 2).const_sub 1).mul (hlim.pow 2))
  have hz' : Filter.Tendsto (fun t => (1 - e.dot (m 0 t) ^ 2) * (F.length - saturation μ A * e.dot (m 0 t)) ^ 2) Filter.atTop (nhds 0) := by
    refine tq.congr' ?_
    filter_upwards [Filter.eventually_ge_atTop 0] with t ht
    rw [← lagrange (sq_unit (track_unit (hm t ht) ⟨ht, le_rfl⟩ (getA h))), hq t ht, hmir t ht, mirror_opening _ hE]
    simp only [CVec.dot, smul]
    ring
  have hzero := tendsto_nhds_unique hz hz'
  have h1 : 1 - ((F.length - g) / saturation μ A) ^ 2 = 0 := by simpa [hne] using hzero
  have h2 : (saturation μ A) ^ 2 = (F.length - g) ^ 2 := by
    field_simp at h1
    linarith
  have h3 := sq_eq_sq_iff_eq_or_eq_neg.1 h2
  rcases h3 with h3 | h3 <;> linarith

/-! ## The hypotheses are met -/

/-- two layers of different thickness and equal moment, coupled antiferromagnetically, in a field along `x` -/
noncomputable def safA (A d : ℝ) (u : CVec ℝ) : Layer ℝ :=
  { plainOf Layer.demo with damping := d, anisotropyDriver := .constantDriver 0, mag := u, IECDriverTop := .constantDriver (-A) }

noncomputable def safB (A d : ℝ) (v : CVec ℝ) : Layer ℝ :=
  { plainOf Layer.demo with
    damping := d, Ms := 1 / 2, thickness := 2, anisotropyDriver := .constantDriver 0, mag := v, IECDriverBottom := .constantDriver (-A) }

noncomputable def safJ (A d e : ℝ) (u v : CVec ℝ) : Junction ℝ := { demoJ with layers := [safA A d u, safB A e v] }

theorem saf_synthetic {A d e : ℝ} {u v : CVec ℝ} (hA : 0 < A) (hd : 0 < d) (he : 0 < e) (hu : u.length = 1) (hv : v.length = 1) :
    Synthetic (safJ A d e u v) (safA A d u) (safB A e v) ⟨1, 0, 0⟩ 1 A := by
  have zero : ∀ t, (AxialDriver.null : AxialDriver ℝ).value t = ⟨0, 0, 0⟩ := by
    intro t; simp [AxialDriver.value, AxialDriver.null, ScalarDriver.value, ScalarDriver.null]
  have mem : ∀ {l}, l ∈ (safJ A d e u v).layers → l = safA A d u ∨ l = safB A e v := fun h => by simpa [safJ] using h
  have fld : ∀ l : Layer ℝ, l.externalFieldDriver = .ofVec ⟨1, 0, 0⟩ → l.HoeDriver = .null → l.HdmiDriver = .null →
      l.HreservedDriver = .null → staticField l = ⟨1, 0, 0⟩ := by
    intro l h1 h2 h3 h4
    rw [staticField, h1, h2, h3, h4, zero]
    apply CVec.ext <;> simp [AxialDriver.value, AxialDriver.ofVec, ScalarDriver.value, ScalarDriver.constantDriver]
  have alone : ∀ l ∈ (safJ A d e u v).layers, Alone l := by
    intro l hl
    rcases mem hl with rfl | rfl
    · refine ⟨rfl, rfl, hd.le, by norm_num [safA, plainOf, Layer.demo], ?_, still_constant rfl, still_constant rfl,
        still_constant rfl, still_constant rfl, still_constant rfl, still_axes ⟨rfl, rfl, rfl⟩, still_axes ⟨rfl, rfl, rfl⟩,
        still_axes ⟨rfl, rfl, rfl⟩, still_axes ⟨rfl, rfl, rfl⟩, zero, zero⟩
      intro a b
      rw [show (safA A d u).demagTensor = Tensor.zero from rfl, tensor_none, tensor_none]
      simp [CVec.dot]
    · refine ⟨rfl, rfl, he.le, by norm_num [safB, plainOf, Layer.demo], ?_, still_constant rfl, still_constant rfl,
        still_constant rfl, still_constant rfl, still_constant rfl, still_axes ⟨rfl, rfl, rfl⟩, still_axes ⟨rfl, rfl, rfl⟩,
        still_axes ⟨rfl, rfl, rfl⟩, still_axes ⟨rfl, rfl, rfl⟩, zero, zero⟩
      intro a b
      rw [show (safB A e v).demagTensor = Tensor.zero from rfl, tensor_none, tensor_none]
      simp [CVec.dot]
  refine ⟨rfl, ⟨alone, fun i lo up h1 h2 => ?_⟩, by norm_num [safA, plainOf, Layer.demo], by norm_num [safB, plainOf, Layer.demo], hd, he, hA,
    by simp [safA, ScalarDriver.value, ScalarDriver.constantDriver], by simp [safA, plainOf, Layer.demo, ScalarDriver.value, ScalarDriver.null],
    fld _ rfl rfl rfl rfl, fld _ rfl rfl rfl rfl, ⟨by simp [safA, ScalarDriver.value, ScalarDriver.constantDriver], 0, by
      simp [safA, plainOf, Layer.demo, Tensor.zero, CVec.zero]⟩,
    ⟨by simp [safB, ScalarDriver.value, ScalarDriver.constantDriver], 0, by simp [safB, plainOf, Layer.demo, Tensor.zero, CVec.zero]⟩, rfl, rfl,
    fun l hl => ?_, fun l hl => ?_, fun l hl => ?_⟩
  · match i, h1, h2 with
    | 0, h1, h2 =>
      obtain rfl : safA A d u = lo := by simpa [safJ] using h1
      obtain rfl : safB A e v = up := by simpa [safJ] using h2
      refine ⟨rfl, rfl, fun a b => ?_⟩
      rw [show (safA A d u).dipoleTop = Tensor.zero from rfl, show (safB A e v).dipoleBottom = Tensor.zero from rfl, tensor_none, tensor_none]
      simp [CVec.dot]
    | 1, h1, h2 => simp [safJ] at h2
    | i + 2, h1, h2 => simp [safJ] at h1
  · rcases mem hl with rfl | rfl
    · exact hu
    · exact hv
  · rw [quiet_iff]
    rcases mem hl with rfl | rfl <;> exact ⟨rfl, by simp [safA, safB, plainOf, Layer.demo]⟩
  · have ax : SmoothAxes (AxialDriver.null : AxialDriver ℝ) := ⟨.inl rfl, .inl rfl, .inl rfl⟩
    rcases mem hl with rfl | rfl <;>
      exact ⟨.inl rfl, .inl rfl, .inl rfl, .inl rfl, .inl rfl, .inl rfl, .inl rfl, .inl rfl, ax, ax, ax,
        ⟨.inl rfl, .inl rfl, .inl rfl⟩, ax, ax⟩

theorem unit_x : (⟨1, 0, 0⟩ : CVec ℝ).length = 1 := by simp [CVec.length_eq, CVec.normSq]

/-- antiparallel layers across the field open half way if the saturation field is twice the field, -/
example : Vanishes (safJ 1 (1 / 10) (1 / 10) ⟨0, 1, 0⟩ ⟨0, -1, 0⟩) fun u v => (opening ⟨1, 0, 0⟩ 1 1 u v).length := by
  refine (C136_flop (saf_synthetic (by norm_num) (by norm_num) (by norm_num) (by simp [CVec.length_eq, CVec.normSq])
    (by simp [CVec.length_eq, CVec.normSq])) rfl ?_ ?_ ?_).1 ?_
  · apply CVec.ext <;> simp [safA, safB]
  · simp [safA, CVec.dot]
  · rw [unit_x]; norm_num
  · rw [unit_x]; norm_num [saturation]

/-- and end along the field if it is half of it. -/
example : Vanishes (safJ (1 / 4) (1 / 10) (1 / 10) ⟨0, 1, 0⟩ ⟨0, -1, 0⟩) fun u _ => (u - smul (1 / (⟨1, 0, 0⟩ : CVec ℝ).length) ⟨1, 0, 0⟩).length := by
  refine ((C136_flop (saf_synthetic (by norm_num) (by norm_num) (by norm_num) (by simp [CVec.length_eq, CVec.normSq])
    (by simp [CVec.length_eq, CVec.normSq])) rfl ?_ ?_ ?_).2 ?_).1
  · apply CVec.ext <;> simp [safA, safB]
  · simp [safA, CVec.dot]
  · rw [unit_x]; norm_num
  · rw [unit_x]; norm_num [saturation]

/-- Layers damped differently that start near the open state. -/
example : Vanishes (safJ 1 (1 / 10) (1 / 5) ⟨4 / 5, 3 / 5, 0⟩ ⟨3 / 5, -4 / 5, 0⟩) fun u v => (opening ⟨1, 0, 0⟩ 1 1 u v).length := by
  have hl : (opening ⟨1, 0, 0⟩ 1 1 ⟨4 / 5, 3 / 5, 0⟩ ⟨3 / 5, -4 / 5, 0⟩).length < 1 := by
    rw [CVec.length_eq, Real.sqrt_lt' one_pos]
    norm_num [opening, saturation, smul, CVec.normSq]
  refine C136_linear (saf_synthetic (by norm_num) (by norm_num) (by norm_num) ?_ ?_) (.inl ?_) ?_
  · rw [CVec.length_eq, Real.sqrt_eq_one]; norm_num [CVec.normSq]
  · rw [CVec.length_eq, Real.sqrt_eq_one]; norm_num [CVec.normSq]
  · rw [unit_x]; exact hl
  · rw [unit_x, show |(1 : ℝ) - saturation 1 1| = 1 by norm_num [saturation]]
    exact hl

end Antiferro
