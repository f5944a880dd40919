import Verif.Props.ConvergenceLlgb
import Mathlib.Analysis.SpecialFunctions.Sqrt
import Mathlib.Analysis.SpecialFunctions.Exp
import Mathlib.Topology.MetricSpace.Pseudo.Basic

/-!
C142: an LLGB layer left to itself at a steady temperature relaxes in closed form: below the Curie temperature the length goes to
the equilibrium magnetisation with the direction kept, above it the magnetisation dies out, and runs of the simulation follow.
-/

set_option linter.unusedSectionVars false
set_option linter.unusedSimpArgs false

namespace Spec
open Filter Topology

/-- The layer has steady drivers, neither anisotropy nor an external field, a temperature that is positive and not the Curie
temperature, positive parameters and some magnetisation. -/
structure Isolated (l : LLGBLayer ℝ) : Prop where
  steady : Steady l
  anisotropy : l.anisotropyDriver.value 0 = 0
  external : l.externalFieldDriver.value 0 = .zero
  damping : 0 < l.damping
  susceptibility : 0 < l.susceptibility
  equilibrium : 0 < l.me
  curie : 0 < l.Tc
  warm : 0 < l.temperatureDriver.value 0
  regular : l.temperatureDriver.value 0 ≠ l.Tc
  magnetised : l.mag ≠ .zero

/-- The longitudinal mobility `γ α∥ / (χ (1 + α²))`. -/
noncomputable def mobility (l : LLGBLayer ℝ) : ℝ :=
  Const.gyro / (1 + l.damping ^ 2) * alphaParallel l.damping (l.temperatureDriver.value 0) l.Tc / l.susceptibility

/-- The growth rate of a small magnetisation: positive below the Curie temperature, negative above it. -/
noncomputable def growth (l : LLGBLayer ℝ) : ℝ :=
  if l.temperatureDriver.value 0 < l.Tc then mobility l / 2 else -mobility l

/-- How the growth rate falls with the square of the length. -/
noncomputable def slowing (l : LLGBLayer ℝ) : ℝ :=
  if l.temperatureDriver.value 0 < l.Tc then mobility l / (2 * l.me ^ 2)
  else mobility l * (3 * l.Tc / (5 * (l.temperatureDriver.value 0 - l.Tc)))

/-- The denominator, squared, of the solution of `u' = (a - c u²) u` that starts from a `u` with `u² = N`. -/
noncomputable def bernoulli (a c N s : ℝ) : ℝ := 1 + c * N * ((Real.exp (2 * a * s) - 1) / a)

/-- The factor by which the magnetisation of the layer has changed after the time `s`. -/
noncomputable def relaxation (l : LLGBLayer ℝ) (s : ℝ) : ℝ :=
  Real.exp (growth l * s) / √(bernoulli (growth l) (slowing l) l.mag.normSq s)

/-- What the magnetisation of the layer tends to. -/
noncomputable def restState (l : LLGBLayer ℝ) : CVec ℝ :=
  if l.temperatureDriver.value 0 < l.Tc then (l.me / l.mag.length) * l.mag else .zero

/-- The relaxing magnetisations of the layers of a junction. -/
noncomputable def relaxing (j : LLGBJunction ℝ) (i : Nat) (t : ℝ) : CVec ℝ :=
  match j.layers[i]? with
  | some l => relaxation l (t - j.time) * l.mag
  | none => .zero

end Spec

namespace LLGBJunction
open Spec Order Order.Llgb LLGBLayer Filter Topology

/-- helper -/
theorem mobility_pos {l : LLGBLayer ℝ} (h : Isolated l) : 0 < mobility l := by
  have := gyro_pos
  have h1 := h.damping
  have h2 := h.susceptibility
  have h3 := h.curie
  have h4 := h.warm
  unfold mobility alphaParallel
  positivity

/-- helper -/
theorem normSq_pos {m : CVec ℝ} (h : m ≠ .zero) : 0 < m.normSq :=
  lt_of_le_of_ne (CVec.normSq_nonneg m) fun e => h ((CVec.normSq_eq_zero m).1 e.symm)

/-- helper -/
theorem growth_ne {l : LLGBLayer ℝ} (h : Isolated l) : growth l ≠ 0 := by
  have := mobility_pos h
  unfold growth
  split_ifs
  · positivity
  · exact neg_ne_zero.2 this.ne'

/-- helper -/
theorem slowing_pos {l : LLGBLayer ℝ} (h : Isolated l) : 0 < slowing l := by
  have := mobility_pos h
  have h2 := h.equilibrium
  have h3 := h.curie
  unfold slowing
  split_ifs with hT
  · positivity
  · have : 0 < l.temperatureDriver.value 0 - l.Tc := sub_pos.2 (lt_of_le_of_ne (not_lt.1 hT) h.regular.symm)
    positivity

/-- helper -/
theorem grown_nonneg (a : ℝ) {s : ℝ} (hs : 0 ≤ s) : 0 ≤ (Real.exp (2 * a * s) - 1) / a := by
  rcases le_total 0 a with h | h
  · exact div_nonneg (sub_nonneg.2 (Real.one_le_exp (by positivity))) h
  · refine div_nonneg_of_nonpos (sub_nonpos.2 (Real.exp_le_one_iff.2 ?_)) h
    nlinarith

/-- helper -/
theorem bernoulli_ge {a c N s : ℝ} (hc : 0 ≤ c) (hN : 0 ≤ N) (hs : 0 ≤ s) : 1 ≤ bernoulli a c N s := by
  have := mul_nonneg (mul_nonneg hc hN) (grown_nonneg a hs)
  unfold bernoulli
  linarith

/-- helper -/
theorem bernoulli_deriv {a c N : ℝ} (ha : a ≠ 0) (s : ℝ) :
    HasDerivAt (bernoulli a c N) (2 * c * N * Real.exp (2 * a * s)) s := by
  have h1 : HasDerivAt (fun s : ℝ => 2 * a * s) (2 * a) s := by simpa using (hasDerivAt_id s).const_mul (2 * a)
  refine ((((h1.exp.sub_const 1).div_const a).const_mul (c * N)).const_add 1).congr_deriv ?_
  field_simp

/-- helper -/
theorem bernoulli_solves {a c N : ℝ} (ha : a ≠ 0) {s : ℝ} (hw : 0 < bernoulli a c N s) :
    HasDerivAt (fun s => Real.exp (a * s) / √(bernoulli a c N s))
      ((a - c * (N * (Real.exp (a * s) / √(bernoulli a c N s)) ^ 2)) * (Real.exp (a * s) / √(bernoulli a c N s))) s := by
  have h1 : HasDerivAt (fun s : ℝ => a * s) a s := by simpa using (hasDerivAt_id s).const_mul a
  have hq := Real.sqrt_pos.2 hw
  refine (h1.exp.div ((bernoulli_deriv ha s).sqrt hw.ne') hq.ne').congr_deriv ?_
  have e2 : Real.exp (2 * a * s) = Real.exp (a * s) ^ 2 := by rw [← Real.exp_nat_mul]; push_cast; ring_nf
  rw [e2]
  set q := √(bernoulli a c N s)
  set E := Real.exp (a * s)
  field_simp

/-- helper -/
theorem isolated_rate {l : LLGBLayer ℝ} (h : Isolated l) (t : ℝ) {m : CVec ℝ} (hm : m ≠ .zero) :
    llbRate l t m = (growth l - slowing l * m.normSq) * m := by
  have hn := (normSq_pos hm).ne'
  have h2 := h.susceptibility.ne'
  have h3 := h.equilibrium.ne'
  have key : ∀ f g p q : ℝ, llb g l.damping p q m ((0 * l.anis.dot m) * l.anis + .zero + f * m) =
      (g / (1 + l.damping ^ 2) * p * f) * m := by
    intro f g p q
    unfold llb
    have e : m.dot ((0 * l.anis.dot m) * l.anis + .zero + f * m) / m.normSq = f := by
      rw [div_eq_iff hn]
      simp [CVec.dot, CVec.normSq]; ring
    rw [mul_div_assoc, e]
    ext <;> simp [CVec.cross] <;> ring
  rw [steady_rate h.steady t 0]
  unfold llbRate longitudinalField
  rw [h.anisotropy, h.external]
  by_cases hT : l.temperatureDriver.value 0 < l.Tc
  · rw [if_pos hT.le, key]
    congr 1
    rw [growth, slowing, if_pos hT, if_pos hT, mobility]
    field_simp
  · have hd : l.temperatureDriver.value 0 - l.Tc ≠ 0 := sub_ne_zero.2 h.regular
    rw [if_neg (fun e => hT (lt_of_le_of_ne e h.regular)), key]
    congr 1
    rw [growth, slowing, if_neg hT, if_neg hT, mobility]
    field_simp
    ring

/-- helper -/
theorem normSq_scaled (c : ℝ) (m : CVec ℝ) : (c * m).normSq = m.normSq * c ^ 2 := by
  simp [CVec.normSq]; ring

/-- helper -/
theorem scaled_ne {c : ℝ} (hc : c ≠ 0) {m : CVec ℝ} (hm : m ≠ .zero) : c * m ≠ .zero := by
  intro e
  have := normSq_scaled c m
  rw [e, show (CVec.zero : CVec ℝ).normSq = 0 by simp [CVec.normSq]] at this
  exact mul_ne_zero (normSq_pos hm).ne' (pow_ne_zero 2 hc) this.symm

/-- helper -/
theorem relaxing_eq {j : LLGBJunction ℝ} {i : Nat} {l : LLGBLayer ℝ} (h : j.layers[i]? = some l) (t : ℝ) :
    relaxing j i t = relaxation l (t - j.time) * l.mag := by
  simp [relaxing, h]

/-- helper -/
theorem relaxation_pos {l : LLGBLayer ℝ} {s : ℝ} (hw : 0 < bernoulli (growth l) (slowing l) l.mag.normSq s) :
    0 < relaxation l s := div_pos (Real.exp_pos _) (Real.sqrt_pos.2 hw)

/-- helper -/
theorem wide_pos {l : LLGBLayer ℝ} (h : Isolated l) {s : ℝ} (hs : 0 ≤ s) :
    0 < bernoulli (growth l) (slowing l) l.mag.normSq s :=
  one_pos.trans_le (bernoulli_ge (slowing_pos h).le (CVec.normSq_nonneg _) hs)

/-- C142: the magnetisations given in closed form solve the equations of motion of the junction, start from its magnetisations,
and never vanish, over any duration. -/
theorem C142_solves (j : LLGBJunction ℝ) (h : ∀ l ∈ j.layers, Isolated l) (T : ℝ) : LlgbTrack j (relaxing j) T := by
  have hev : ∀ᶠ t in 𝓝 j.time, ∀ l ∈ {l | l ∈ j.layers},
      0 < bernoulli (growth l) (slowing l) l.mag.normSq (t - j.time) := by
    rw [Filter.eventually_all_finite (List.finite_toSet j.layers)]
    intro l hl
    have hc : ContinuousAt (fun t => bernoulli (growth l) (slowing l) l.mag.normSq (t - j.time)) j.time := by
      have h1 : HasDerivAt (fun t : ℝ => t - j.time) 1 j.time := (hasDerivAt_id j.time).sub_const j.time
      exact (HasDerivAt.comp (h₂ := bernoulli (growth l) (slowing l) l.mag.normSq) j.time
        (bernoulli_deriv (growth_ne (h l hl)) _) h1).continuousAt
    refine hc.eventually_const_lt ?_
    show 0 < bernoulli (growth l) (slowing l) l.mag.normSq (j.time - j.time)
    rw [sub_self]
    exact wide_pos (h l hl) le_rfl
  obtain ⟨e, he, hb⟩ := Metric.eventually_nhds_iff.1 hev
  have hw : ∀ l ∈ j.layers, ∀ t, j.time - e < t → 0 < bernoulli (growth l) (slowing l) l.mag.normSq (t - j.time) := by
    intro l hl t ht
    rcases le_total j.time t with h1 | h1
    · exact wide_pos (h l hl) (sub_nonneg.2 h1)
    · refine hb ?_ l hl
      rw [Real.dist_eq, abs_lt]
      constructor <;> linarith
  refine ⟨⟨j.time - e, j.time + T + 1, by linarith, by linarith, ?_⟩, ?_, ?_, ?_⟩
  · intro i l hi t ht
    have hl := List.mem_of_getElem? hi
    have hp := hw l hl t ht.1
    have hr := relaxation_pos hp
    rw [relaxing_eq hi, isolated_rate (h l hl) t (scaled_ne hr.ne' (h l hl).magnetised), normSq_scaled]
    have ef : relaxing j i = fun t => relaxation l (t - j.time) * l.mag := funext (relaxing_eq hi)
    rw [ef]
    have h1 : HasDerivAt (fun t : ℝ => t - j.time) 1 t := (hasDerivAt_id t).sub_const j.time
    have h2 : HasDerivAt (fun t => relaxation l (t - j.time)) _ t :=
      HasDerivAt.comp (h₂ := relaxation l) t (bernoulli_solves (growth_ne (h l hl)) hp) h1
    refine ⟨?_, ?_, ?_⟩
    · refine (h2.mul_const l.mag.x).congr_deriv ?_
      simp [relaxation]; ring
    · refine (h2.mul_const l.mag.y).congr_deriv ?_
      simp [relaxation]; ring
    · refine (h2.mul_const l.mag.z).congr_deriv ?_
      simp [relaxation]; ring
  · intro i l hi
    rw [relaxing_eq hi, sub_self]
    ext <;> simp [relaxation, bernoulli]
  · intro l hl t _
    have hs := (h l hl).steady
    have e1 : l.temperatureDriver.value = fun _ => l.temperatureDriver.value 0 := funext hs.temperature
    have e2 : l.anisotropyDriver.value = fun _ => l.anisotropyDriver.value 0 := funext hs.anisotropy
    have e3 : l.externalFieldDriver.value = fun _ => l.externalFieldDriver.value 0 := funext hs.external
    refine ⟨?_, ?_, ?_, ?_⟩
    · rw [e1]; exact contDiffAt_const
    · rw [e2]; exact contDiffAt_const
    · rw [e3]; exact ⟨contDiffAt_const, contDiffAt_const, contDiffAt_const⟩
    · rw [hs.temperature]; exact (h l hl).regular
  · intro i hi t ht
    have e : j.layers[i]? = some j.layers[i] := List.getElem?_eq_getElem hi
    rw [relaxing_eq e]
    exact scaled_ne (relaxation_pos (wide_pos (h _ (List.getElem_mem hi)) (sub_nonneg.2 ht.1))).ne'
      (h _ (List.getElem_mem hi)).magnetised

/-- C142: every run of either solver converges to these magnetisations, of second order for the Heun solver. -/
theorem C142_runs (j : LLGBJunction ℝ) (h : ∀ l ∈ j.layers, Isolated l) (T : ℝ) :
    (∀ mode, LlgbConverges j mode (relaxing j) T 1) ∧ LlgbConverges j .HEUN (relaxing j) T 2 :=
  ⟨C112_all j _ T (C142_solves j h T), C112_heun_partial j _ T (C142_solves j h T) fun l hl => (h l hl).steady⟩

/-- C142: the length of the magnetisation in closed form. Below the Curie temperature, with `r` the square of the ratio of the
initial to the equilibrium length, the length is `me √r / √(r + (1 - r) exp (-κ s))`, with `κ` the mobility. -/
theorem C142_below (l : LLGBLayer ℝ) (h : Isolated l) (hT : l.temperatureDriver.value 0 < l.Tc) (s : ℝ) (hs : 0 ≤ s) :
    relaxation l s = 1 / √(l.mag.normSq / l.me ^ 2 + (1 - l.mag.normSq / l.me ^ 2) * Real.exp (-(mobility l * s))) := by
  have hm := mobility_pos h
  have he := h.equilibrium
  have hw := wide_pos h hs
  have e : bernoulli (growth l) (slowing l) l.mag.normSq s = Real.exp (growth l * s) ^ 2 *
      (l.mag.normSq / l.me ^ 2 + (1 - l.mag.normSq / l.me ^ 2) * Real.exp (-(mobility l * s))) := by
    have e1 : Real.exp (growth l * s) ^ 2 = Real.exp (mobility l * s) := by
      rw [← Real.exp_nat_mul, growth, if_pos hT]; push_cast; ring_nf
    have e2 : Real.exp (2 * growth l * s) = Real.exp (mobility l * s) := by rw [growth, if_pos hT]; ring_nf
    rw [bernoulli, e1, e2, Real.exp_neg, growth, slowing, if_pos hT, if_pos hT]
    have := (Real.exp_pos (mobility l * s)).ne'
    field_simp
    ring
  rw [relaxation, e, Real.sqrt_mul (sq_nonneg _), Real.sqrt_sq (Real.exp_pos _).le]
  have := (Real.exp_pos (growth l * s)).ne'
  field_simp

/-- C142: above the Curie temperature the magnetisation falls at least as fast as `exp (-κ s)`, with `κ` the mobility. -/
theorem C142_above (l : LLGBLayer ℝ) (h : Isolated l) (hT : l.Tc < l.temperatureDriver.value 0) (s : ℝ) (hs : 0 ≤ s) :
    0 < relaxation l s ∧ relaxation l s ≤ Real.exp (-(mobility l * s)) := by
  refine ⟨relaxation_pos (wide_pos h hs), ?_⟩
  have e : growth l * s = -(mobility l * s) := by rw [growth, if_neg hT.not_gt]; ring
  rw [relaxation, e]
  refine div_le_self (Real.exp_pos _).le ?_
  rw [Real.one_le_sqrt]
  exact bernoulli_ge (slowing_pos h).le (CVec.normSq_nonneg _) hs

/-- helper -/
theorem relaxation_lim {l : LLGBLayer ℝ} (h : Isolated l) : Tendsto (relaxation l) atTop
    (𝓝 (if l.temperatureDriver.value 0 < l.Tc then l.me / l.mag.length else 0)) := by
  have hm := mobility_pos h
  have hz : Tendsto (fun s : ℝ => Real.exp (-(mobility l * s))) atTop (𝓝 0) :=
    Real.tendsto_exp_neg_atTop_nhds_zero.comp (tendsto_id.const_mul_atTop hm)
  split_ifs with hT
  · have hn := normSq_pos h.magnetised
    have he := h.equilibrium
    have h1 : Tendsto (fun s => 1 / √(l.mag.normSq / l.me ^ 2 + (1 - l.mag.normSq / l.me ^ 2) *
        Real.exp (-(mobility l * s)))) atTop (𝓝 (1 / √(l.mag.normSq / l.me ^ 2 + (1 - l.mag.normSq / l.me ^ 2) * 0))) :=
      tendsto_const_nhds.div ((hz.const_mul _).const_add _).sqrt (by rw [mul_zero, add_zero]; positivity)
    rw [mul_zero, add_zero, Real.sqrt_div' _ (sq_nonneg _), Real.sqrt_sq he.le, one_div_div, ← CVec.length_eq] at h1
    refine h1.congr' ?_
    filter_upwards [eventually_ge_atTop 0] with s hs
    rw [C142_below l h hT s hs]
  · have hT' : l.Tc < l.temperatureDriver.value 0 := lt_of_le_of_ne (not_lt.1 hT) h.regular.symm
    refine tendsto_of_tendsto_of_tendsto_of_le_of_le' tendsto_const_nhds hz ?_ ?_
    · filter_upwards [eventually_ge_atTop 0] with s hs using (C142_above l h hT' s hs).1.le
    · filter_upwards [eventually_ge_atTop 0] with s hs using (C142_above l h hT' s hs).2

/-- helper -/
theorem length_scaled (c : ℝ) (m : CVec ℝ) : (c * m).length = |c| * m.length := by
  rw [CVec.length_eq, CVec.length_eq, normSq_scaled, Real.sqrt_mul (CVec.normSq_nonneg m), Real.sqrt_sq_eq_abs, mul_comm]

/-- helper -/
theorem to_rest {l : LLGBLayer ℝ} (h : Isolated l) :
    Tendsto (fun s => (relaxation l s * l.mag - restState l).length) atTop (𝓝 0) := by
  set c : ℝ := if l.temperatureDriver.value 0 < l.Tc then l.me / l.mag.length else 0 with hc
  have e : restState l = c * l.mag := by
    rw [restState, hc]
    split_ifs
    · rfl
    · ext <;> simp
  have e2 : ∀ s, (relaxation l s * l.mag - restState l).length = |relaxation l s - c| * l.mag.length := by
    intro s
    rw [← length_scaled, e]
    congr 1
    ext <;> simp <;> ring
  simp only [e2]
  have := ((relaxation_lim h).sub_const c).abs.mul_const l.mag.length
  rwa [← hc, sub_self, abs_zero, zero_mul] at this

/-- C142: below the Curie temperature the magnetisation tends to the equilibrium length in its own direction, above it to zero. -/
theorem C142_settles (j : LLGBJunction ℝ) (h : ∀ l ∈ j.layers, Isolated l) (i : Nat) (l : LLGBLayer ℝ)
    (hi : j.layers[i]? = some l) : Tendsto (fun t => (relaxing j i t - restState l).length) atTop (𝓝 0) ∧
    (restState l).length = if l.temperatureDriver.value 0 < l.Tc then l.me else 0 := by
  have hl := h l (List.mem_of_getElem? hi)
  constructor
  · simp only [relaxing_eq hi]
    exact (to_rest hl).comp (tendsto_atTop_add_const_right _ (-j.time) tendsto_id)
  · rw [restState]
    split_ifs
    · have hn : 0 < l.mag.length := by rw [CVec.length_eq]; exact Real.sqrt_pos.2 (normSq_pos hl.magnetised)
      rw [length_scaled, abs_of_pos (div_pos hl.equilibrium hn), div_mul_cancel₀ _ hn.ne']
    · exact (CVec.length_eq_zero _).2 rfl

/-- C142: runs that are long enough, with a time step that is small enough, end as near the state of rest as desired. -/
theorem C142_ends (j : LLGBJunction ℝ) (h : ∀ l ∈ j.layers, Isolated l) (mode : SolverMode) (e : ℝ) (he : 0 < e) :
    ∃ S, 0 < S ∧ ∀ T, S ≤ T → ∃ r, 0 < r ∧ ∀ (n : Nat) (dt : ℝ), 0 < dt → dt ≤ r → S ≤ n * dt → n * dt ≤ T →
      ∀ (we : Nat) (k : LLGBJunction ℝ), LlgbLoopEnds j mode n dt we k → ∀ (i : Nat) (l l' : LLGBLayer ℝ),
        j.layers[i]? = some l → k.layers[i]? = some l' → (l'.mag - restState l).length ≤ e := by
  have hev : ∀ᶠ s in atTop, ∀ l ∈ {l | l ∈ j.layers}, (relaxation l s * l.mag - restState l).length < e / 2 := by
    rw [Filter.eventually_all_finite (List.finite_toSet j.layers)]
    exact fun l hl => (to_rest (h l hl)).eventually_lt_const (half_pos he)
  obtain ⟨S, hS⟩ := eventually_atTop.1 hev
  refine ⟨max S 1, lt_max_of_lt_right one_pos, fun T _ => ?_⟩
  obtain ⟨C, r, hr, hrun, -⟩ := (C142_runs j h T).1 mode
  refine ⟨min r (e / (2 * (|C| + 1))), lt_min hr (by positivity), fun n dt hdt hdr hn hnT we k hk i l l' hi hi' => ?_⟩
  have h1 := hrun n dt hdt (hdr.trans (min_le_left _ _)) hnT we k hk i l' hi'
  have h2 := hS (n * dt) ((le_max_left _ _).trans hn) l (List.mem_of_getElem? hi)
  rw [relaxing_eq hi, add_sub_cancel_left, pow_one] at h1
  have h3 : C * dt ≤ e / 2 := by
    have ha := hdr.trans (min_le_right _ _)
    rw [le_div_iff₀ (by positivity)] at ha
    nlinarith [le_abs_self C, abs_nonneg C]
  rw [← norm_toV, toV_sub] at h1 h2 ⊢
  refine (norm_sub_le_norm_sub_add_norm_sub _ (toV (relaxation l (n * dt) * l.mag)) _).trans ?_
  linarith

/-- The warm layer of C43 is isolated, and so is the same layer above its Curie temperature. -/
theorem warm_isolated : Isolated warmLayer ∧ Isolated { warmLayer with
    temperatureDriver := .constantDriver 1000 } := by
  constructor <;> constructor <;>
    first
    | exact ⟨fun t => by simp [warmLayer, ScalarDriver.constantDriver, ScalarDriver.value],
        fun t => by simp [warmLayer, ScalarDriver.null, ScalarDriver.value],
        fun t => by simp [warmLayer, AxialDriver.null, AxialDriver.value, ScalarDriver.null, ScalarDriver.value]⟩
    | (simp [warmLayer, ScalarDriver.constantDriver, ScalarDriver.null, ScalarDriver.value]; done)
    | (norm_num [warmLayer, ScalarDriver.constantDriver, ScalarDriver.null, ScalarDriver.value]; done)
    | (ext <;> simp [warmLayer, AxialDriver.null, AxialDriver.value, ScalarDriver.null, ScalarDriver.value])
    | (rw [ne_eq, CVec.eq_zero_iff]; norm_num [warmLayer])

/-- The hypotheses of the theorems of C142 hold for a junction of two layers, one below and one above its Curie temperature: the
first ends at four fifths of slowing, the second without magnetisation. -/
example : ∃ j : LLGBJunction ℝ, j.layers.length = 2 ∧ (∀ l ∈ j.layers, Isolated l) ∧
    ∃ l l', j.layers = [l, l'] ∧ l.mag.length = 1 / 2 ∧ (restState l).length = 4 / 5 ∧ (restState l').length = 0 ∧
      LlgbConverges j .HEUN (relaxing j) 1 2 := by
  have hw := warm_isolated
  have hi : ∀ l ∈ (mk' [warmLayer, { warmLayer with
      temperatureDriver := .constantDriver 1000 }]).layers, Isolated l := by
    intro l hl
    simp only [mk', List.mem_cons, List.not_mem_nil, or_false] at hl
    rcases hl with rfl | rfl
    · exact hw.1
    · exact hw.2
  refine ⟨_, rfl, hi, _, _, rfl, ?_, ?_, ?_, (C142_runs _ hi 1).2⟩
  · rw [CVec.length_eq, Real.sqrt_eq_iff_mul_self_eq_of_pos (by norm_num)]
    norm_num [warmLayer, CVec.normSq]
  · rw [(C142_settles _ hi 0 _ rfl).2, if_pos (by
      norm_num [warmLayer, ScalarDriver.constantDriver, ScalarDriver.value])]
    rfl
  · rw [(C142_settles _ hi 1 _ rfl).2, if_neg (by
      norm_num [warmLayer, ScalarDriver.constantDriver, ScalarDriver.value])]

end LLGBJunction
