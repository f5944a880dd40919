import Verif.Props.Relax
import Mathlib.Analysis.SpecialFunctions.Exp

set_option linter.unusedSectionVars false

/-!
# C126: a layer switches where the macrospin theory says

Specification: a single layer whose anisotropy, demagnetisation, field and polariser share the axis `z`. Theory gives one number, the
push along the axis; its sign decides where the layer goes. The equation of motion is `Spec.Motion`, to whose solutions runs converge
(C111).
-/

namespace Spec
open Layer

/-- Everything about the layer is symmetric around the axis `z`, and nothing changes with time: `h` is the field, `K` the
anisotropy, `n` and `N` the demagnetisation factors across and along the axis, `p` the polariser. -/
structure Axial (l : Layer ℝ) (h K n N p : ℝ) : Prop where
  field : ∀ t, l.externalFieldDriver.value t + l.HoeDriver.value t + l.HdmiDriver.value t + l.HreservedDriver.value t = ⟨0, 0, h⟩
  axis : l.anis = ⟨0, 0, 1⟩
  anisotropy : ∀ t, l.anisotropyDriver.value t = K
  demag : l.demagTensor = ⟨⟨n, 0, 0⟩, ⟨0, n, 0⟩, ⟨0, 0, N⟩⟩
  fixed : l.referenceType = .FIXED
  reference : l.referenceLayer = ⟨0, 0, p⟩
  current : Still l.currentDriver
  fieldLike : Still l.fieldLikeTorqueDriver
  dampingLike : Still l.dampingLikeTorqueDriver

/-- The anisotropy field less the demagnetising field, in A/m. -/
noncomputable def stiffness (Ms K n N : ℝ) : ℝ := 2 * K / Ms - (N - n) * Ms / 1.257e-6

/-- The push of the spin torques along the axis when the component along it is `z`. -/
noncomputable def spinPush (l : Layer ℝ) (p z : ℝ) : ℝ :=
  if l.includeSTT = true then
    6.62607015e-34 / (2 * Real.pi) * l.currentDriver.value 0 / (1.60217662e-19 * l.Ms * l.thickness) * l.kappa * p *
      (if l.alternativeSTTSet = true then l.spinPolarisation / (1 + l.slonczewski * (p * z))
      else l.spinPolarisation * l.slonczewski ^ 2 / (l.slonczewski ^ 2 + 1 + (l.slonczewski ^ 2 - 1) * (p * z)))
  else if l.includeSOT = true then
    if l.dynamicSOT = true then (l.dampingLikeTorqueDriver.value 0 + l.damping * l.fieldLikeTorqueDriver.value 0) * p
    else (l.dampingLikeTorque + l.damping * l.fieldLikeTorque) * l.currentDriver.value 0 * p
  else 0

/-- Damping pulls towards the field, spin torques push. -/
noncomputable def push (l : Layer ℝ) (h K n N p z : ℝ) : ℝ := l.damping * (h + stiffness l.Ms K n N * z) + spinPush l p z

/-- The simulation brings the component along the axis to `z`: for every solver and every tolerance there is a time from which on,
with small enough steps, runs end within the tolerance. -/
def GoesTo (j : Junction ℝ) (z : ℝ) : Prop :=
  ∀ (mode : SolverMode) (ε : ℝ), 0 < ε → ∃ S : ℝ, ∀ T : ℝ, ∃ r : ℝ, 0 < r ∧ ∀ (n : Nat) (dt : ℝ), 0 < dt → dt ≤ r → S ≤ n * dt →
    n * dt ≤ T → ∀ (we : Nat) (en : Bool) (k : Junction ℝ), LoopEnds j mode n dt we en k → ∀ l ∈ k.layers, |l.mag.z - z| ≤ ε

/-- The junction holds one layer that can be simulated: unit magnetisation, a volume, no noise, smooth drivers, no pole. -/
structure Undriven (j : Junction ℝ) (l : Layer ℝ) : Prop where
  single : j.layers = [l]
  unit : l.mag.length = 1
  volume : l.Ms * l.thickness ≠ 0
  quiet : ¬ Noisy l
  smooth : SmoothDrivers l
  poleless : Poleless l

end Spec

/-! ## One dimension -/

namespace Switching

theorem decay (A : ℝ) {a : ℝ} (ha : 0 < a) : Filter.Tendsto (fun t : ℝ => A * Real.exp (-(a * t))) Filter.atTop (nhds 0) := by
  have := (Real.tendsto_exp_neg_atTop_nhds_zero.comp (Filter.tendsto_id.const_mul_atTop ha)).const_mul A
  rwa [mul_zero] at this

/-- helper: `z' = c (1 - z²) q(z)` with `q > 0` at `b`: `z` does not fall below `b`. -/
theorem trapped {z q : ℝ → ℝ} {c b : ℝ} (hc : 0 < c) (hz : ∀ t, 0 ≤ t → HasDerivAt z (c * (1 - z t ^ 2) * q (z t)) t)
    (hb : -1 < b) (hb1 : b < 1) (h0 : b ≤ z 0) (hq : 0 < q b) {t : ℝ} (ht : 0 ≤ t) : b ≤ z t := by
  have := image_le_of_deriv_right_lt_deriv_boundary (f := fun t => -z t) (f' := fun t => -(c * (1 - z t ^ 2) * q (z t))) (B := fun _ => -b)
    (B' := fun _ => 0) (a := 0) (b := t) (fun s hs => (hz s hs.1).continuousAt.continuousWithinAt.neg)
    (fun s hs => (hz s hs.1).neg.hasDerivWithinAt) (by linarith) (fun s => hasDerivAt_const s _) (fun s hs e => by
      have e : z s = b := by linarith
      rw [e]
      have hp : 0 < c * (1 - b ^ 2) * q b := mul_pos (mul_pos hc (by nlinarith)) hq
      linarith) (Set.right_mem_Icc.2 ht)
  linarith

/-- helper: the same from above. -/
theorem trapped' {z q : ℝ → ℝ} {c b : ℝ} (hc : 0 < c) (hz : ∀ t, 0 ≤ t → HasDerivAt z (c * (1 - z t ^ 2) * q (z t)) t)
    (hb : -1 < b) (hb1 : b < 1) (h0 : z 0 ≤ b) (hq : q b < 0) {t : ℝ} (ht : 0 ≤ t) : z t ≤ b := by
  have := trapped (z := fun t => -z t) (q := fun y => -q (-y)) (b := -b) hc (fun t ht => by
      refine (hz t ht).neg.congr_deriv ?_
      rw [neg_neg]; ring) (by linarith) (by linarith) (by linarith) (by rw [neg_neg]; linarith) ht
  linarith

/-- helper: `z' = c (1 - z²) q(z)` with `q ≥ δ > 0` above `b`: `z` goes to one. -/
theorem rises {z q : ℝ → ℝ} {c δ b : ℝ} (hc : 0 < c) (hδ : 0 < δ) (hz : ∀ t, 0 ≤ t → HasDerivAt z (c * (1 - z t ^ 2) * q (z t)) t)
    (h1 : ∀ t, 0 ≤ t → z t ≤ 1) (hb : -1 < b) (hb1 : b < 1) (h0 : b ≤ z 0) (hq : ∀ y, b ≤ y → y ≤ 1 → δ ≤ q y) {t : ℝ} (ht : 0 ≤ t) :
    b ≤ z t ∧ (1 - z t) * (1 + z 0) ≤ (1 - z 0) * (1 + z t) * Real.exp (-(2 * c * δ * t)) := by
  have hge : ∀ t, 0 ≤ t → b ≤ z t := fun t ht => trapped hc hz hb hb1 h0 (by linarith [hq b le_rfl hb1.le]) ht
  refine ⟨hge t ht, ?_⟩
  have hu : ∀ t, 0 ≤ t → 0 < 1 + z t := fun t ht => by linarith [hge t ht]
  have hd : ∀ t, 0 ≤ t → HasDerivAt (fun t => (1 - z t) / (1 + z t) * Real.exp (2 * c * δ * t))
      (2 * c * (δ - q (z t)) * ((1 - z t) / (1 + z t)) * Real.exp (2 * c * δ * t)) t := by
    intro t ht
    have h1 : HasDerivAt (fun t => (1 - z t)) (-(c * (1 - z t ^ 2) * q (z t))) t := by simpa using (hz t ht).const_sub 1
    have h2 : HasDerivAt (fun t => (1 + z t)) (c * (1 - z t ^ 2) * q (z t)) t := by simpa using (hz t ht).const_add 1
    have h3 : HasDerivAt (fun t => Real.exp (2 * c * δ * t)) (Real.exp (2 * c * δ * t) * (2 * c * δ)) t := by
      simpa using ((hasDerivAt_id t).const_mul (2 * c * δ)).exp
    refine ((h1.div h2 (hu t ht).ne').mul h3).congr_deriv ?_
    have := (hu t ht).ne'
    simp only [Pi.div_apply]
    field_simp
    ring
  have hanti : AntitoneOn (fun t => (1 - z t) / (1 + z t) * Real.exp (2 * c * δ * t)) (Set.Ici 0) := by
    refine antitoneOn_of_deriv_nonpos (convex_Ici 0) (fun s hs => (hd s hs).continuousAt.continuousWithinAt) ?_ ?_
    · rw [interior_Ici]
      exact fun s hs => (hd s (le_of_lt hs)).differentiableAt.differentiableWithinAt
    · rw [interior_Ici]
      intro s hs
      have hs : 0 ≤ s := le_of_lt hs
      rw [(hd s hs).deriv]
      have a1 := hq (z s) (hge s hs) (h1 s hs)
      have a2 : 0 ≤ (1 - z s) / (1 + z s) := div_nonneg (by linarith [h1 s hs]) (hu s hs).le
      have a3 := Real.exp_pos (2 * c * δ * s)
      have : 0 ≤ 2 * c * (q (z s) - δ) * ((1 - z s) / (1 + z s)) * Real.exp (2 * c * δ * s) :=
        mul_nonneg (mul_nonneg (mul_nonneg (by positivity) (by linarith)) a2) a3.le
      linarith
  have hle := hanti (Set.mem_Ici.2 le_rfl) (Set.mem_Ici.2 ht) ht
  simp only [mul_zero, Real.exp_zero, mul_one] at hle
  rw [Real.exp_neg]
  rw [div_mul_eq_mul_div, div_le_div_iff₀ (hu t ht) (hu 0 le_rfl)] at hle
  rw [← div_eq_mul_inv, le_div_iff₀ (Real.exp_pos _)]
  nlinarith

/-- helper: the same downwards. -/
theorem falls {z q : ℝ → ℝ} {c δ b : ℝ} (hc : 0 < c) (hδ : 0 < δ) (hz : ∀ t, 0 ≤ t → HasDerivAt z (c * (1 - z t ^ 2) * q (z t)) t)
    (h1 : ∀ t, 0 ≤ t → -1 ≤ z t) (hb : -1 < b) (hb1 : b < 1) (h0 : z 0 ≤ b) (hq : ∀ y, -1 ≤ y → y ≤ b → q y ≤ -δ) {t : ℝ} (ht : 0 ≤ t) :
    z t ≤ b ∧ (1 + z t) * (1 - z 0) ≤ (1 + z 0) * (1 - z t) * Real.exp (-(2 * c * δ * t)) := by
  have := rises (z := fun t => -z t) (q := fun y => -q (-y)) (b := -b) hc hδ (fun t ht => by
      refine (hz t ht).neg.congr_deriv ?_
      rw [neg_neg]; ring) (fun t ht => by linarith [h1 t ht]) (by linarith) (by linarith) (by linarith)
    (fun y h1 h2 => by have := hq (-y) (by linarith) (by linarith); linarith) ht
  refine ⟨by linarith [this.1], ?_⟩
  have h2 := this.2
  simp only [sub_neg_eq_add, ← sub_eq_add_neg] at h2
  exact h2

/-- helper: `z' = c (1 - z²) k (y - z)`: `z` goes to `y`. -/
theorem settles {z : ℝ → ℝ} {c k y : ℝ} (hc : 0 < c) (hk : 0 < k) (hz : ∀ t, 0 ≤ t → HasDerivAt z (c * (1 - z t ^ 2) * (k * (y - z t))) t)
    (hy : -1 < y) (hy1 : y < 1) (h0 : -1 < z 0) (h01 : z 0 < 1) : Filter.Tendsto z Filter.atTop (nhds y) := by
  obtain ⟨a, ha, ha'⟩ := exists_between (lt_min h0 hy)
  obtain ⟨b, hb', hb⟩ := exists_between (max_lt h01 hy1)
  rw [lt_min_iff] at ha'
  rw [max_lt_iff] at hb'
  have hab : ∀ t, 0 ≤ t → a ≤ z t ∧ z t ≤ b := fun t ht =>
    ⟨trapped (q := fun z => k * (y - z)) hc hz ha (by linarith) ha'.1.le (mul_pos hk (by linarith)) ht,
      trapped' (q := fun z => k * (y - z)) hc hz (by linarith) hb hb'.1.le (mul_neg_of_pos_of_neg hk (by linarith)) ht⟩
  set μ := (1 + a) * (1 - b) with hμ
  have hμ0 : 0 < μ := mul_pos (by linarith) (by linarith)
  have hle : ∀ t, 0 ≤ t → μ ≤ 1 - z t ^ 2 := fun t ht => by
    obtain ⟨h1, h2⟩ := hab t ht
    nlinarith [mul_nonneg (sub_nonneg.2 h1) (sub_nonneg.2 (h2.trans hb.le)), mul_nonneg (sub_nonneg.2 h2) (show 0 ≤ 1 + a by linarith)]
  have hd : ∀ t, 0 ≤ t → HasDerivAt (fun t => (z t - y) ^ 2 * Real.exp (2 * c * k * μ * t))
      (2 * c * k * (μ - (1 - z t ^ 2)) * (z t - y) ^ 2 * Real.exp (2 * c * k * μ * t)) t := by
    intro t ht
    have h1 : HasDerivAt (fun t => (z t - y) ^ 2) (2 * (z t - y) * (c * (1 - z t ^ 2) * (k * (y - z t)))) t := by
      refine (((hz t ht).sub_const y).pow 2).congr_deriv ?_
      norm_num
    have h3 : HasDerivAt (fun t => Real.exp (2 * c * k * μ * t)) (Real.exp (2 * c * k * μ * t) * (2 * c * k * μ)) t := by
      simpa using ((hasDerivAt_id t).const_mul (2 * c * k * μ)).exp
    refine (h1.mul h3).congr_deriv ?_
    ring
  have hanti : AntitoneOn (fun t => (z t - y) ^ 2 * Real.exp (2 * c * k * μ * t)) (Set.Ici 0) := by
    refine antitoneOn_of_deriv_nonpos (convex_Ici 0) (fun s hs => (hd s hs).continuousAt.continuousWithinAt) ?_ ?_
    · rw [interior_Ici]
      exact fun s hs => (hd s (le_of_lt hs)).differentiableAt.differentiableWithinAt
    · rw [interior_Ici]
      intro s hs
      have hs : 0 ≤ s := le_of_lt hs
      rw [(hd s hs).deriv]
      have : 0 ≤ 2 * c * k * ((1 - z s ^ 2) - μ) * (z s - y) ^ 2 * Real.exp (2 * c * k * μ * s) :=
        mul_nonneg (mul_nonneg (mul_nonneg (by positivity) (by linarith [hle s hs])) (sq_nonneg _)) (Real.exp_pos _).le
      linarith
  have hexp : Filter.Tendsto (fun t : ℝ => (z 0 - y) ^ 2 * Real.exp (-(2 * c * k * μ * t))) Filter.atTop (nhds 0) :=
    decay _ (by positivity)
  have hsq : Filter.Tendsto (fun t => (z t - y) ^ 2) Filter.atTop (nhds 0) := by
    refine squeeze_zero' (Filter.Eventually.of_forall fun t => sq_nonneg _) ?_ hexp
    filter_upwards [Filter.eventually_ge_atTop 0] with t ht
    have := hanti (Set.mem_Ici.2 le_rfl) (Set.mem_Ici.2 ht) ht
    simp only [mul_zero, Real.exp_zero, mul_one] at this
    rw [Real.exp_neg, ← div_eq_mul_inv, le_div_iff₀ (Real.exp_pos _)]
    exact this
  have := hsq.sqrt
  rw [Real.sqrt_zero] at this
  simp only [Real.sqrt_sq_eq_abs] at this
  exact tendsto_sub_nhds_zero_iff.1 ((tendsto_zero_iff_abs_tendsto_zero _).2 this)

theorem tendsto_rises {z q : ℝ → ℝ} {c δ b : ℝ} (hc : 0 < c) (hδ : 0 < δ)
    (hz : ∀ t, 0 ≤ t → HasDerivAt z (c * (1 - z t ^ 2) * q (z t)) t)
    (h1 : ∀ t, 0 ≤ t → z t ≤ 1) (hb : -1 < b) (hb1 : b < 1) (h0 : b ≤ z 0) (hq : ∀ y, b ≤ y → y ≤ 1 → δ ≤ q y) :
    Filter.Tendsto z Filter.atTop (nhds 1) := by
  have hexp : Filter.Tendsto (fun t : ℝ => (1 - z 0) * 2 / (1 + z 0) * Real.exp (-(2 * c * δ * t))) Filter.atTop (nhds 0) :=
    decay _ (by positivity)
  have : Filter.Tendsto (fun t => 1 - z t) Filter.atTop (nhds 0) := by
    refine squeeze_zero' ?_ ?_ hexp
    · filter_upwards [Filter.eventually_ge_atTop 0] with t ht
      linarith [h1 t ht]
    · filter_upwards [Filter.eventually_ge_atTop 0] with t ht
      have h := (rises hc hδ hz h1 hb hb1 h0 hq ht).2
      have hp : 0 < 1 + z 0 := by linarith
      rw [div_mul_eq_mul_div, le_div_iff₀ hp]
      refine h.trans (mul_le_mul_of_nonneg_right (mul_le_mul_of_nonneg_left ?_ ?_) (Real.exp_pos _).le)
      · linarith [h1 t ht]
      · linarith [h1 0 le_rfl]
  have := this.const_sub 1
  simpa using this

theorem tendsto_falls {z q : ℝ → ℝ} {c δ b : ℝ} (hc : 0 < c) (hδ : 0 < δ)
    (hz : ∀ t, 0 ≤ t → HasDerivAt z (c * (1 - z t ^ 2) * q (z t)) t)
    (h1 : ∀ t, 0 ≤ t → -1 ≤ z t) (hb : -1 < b) (hb1 : b < 1) (h0 : z 0 ≤ b) (hq : ∀ y, -1 ≤ y → y ≤ b → q y ≤ -δ) :
    Filter.Tendsto z Filter.atTop (nhds (-1)) := by
  have := tendsto_rises (z := fun t => -z t) (q := fun y => -q (-y)) (b := -b) hc hδ (fun t ht => by
      refine (hz t ht).neg.congr_deriv ?_
      rw [neg_neg]; ring) (fun t ht => by linarith [h1 t ht]) (by linarith) (by linarith) (by linarith)
    (fun y h1 h2 => by have := hq (-y) (by linarith) (by linarith); linarith)
  simpa using this.neg

end Switching

namespace Junction
open Spec Layer Switching

theorem axial_field {l : Layer ℝ} {h K n N p : ℝ} (ha : Axial l h K n N p) (t : ℝ) (m : CVec ℝ) :
    field l t m ⟨0, 0, 0⟩ ⟨0, 0, 0⟩ = ⟨-(n * l.Ms / 1.257e-6) * m.x, -(n * l.Ms / 1.257e-6) * m.y,
      h + stiffness l.Ms K n N * m.z - n * l.Ms / 1.257e-6 * m.z⟩ := by
  have hf := ha.field t
  have fx := congrArg CVec.x hf
  have fy := congrArg CVec.y hf
  have fz := congrArg CVec.z hf
  simp only [CVec.add_x, CVec.add_y, CVec.add_z] at fx fy fz
  apply CVec.ext
  all_goals
    simp only [field, heffSpec, ha.axis, ha.demag, ha.anisotropy, exchangeField, idmiField, anisField, tensorField, smul, stiffness]
    norm_num
    linarith

/-- C126: the component along the axis has an equation of its own. -/
theorem C126_rate {l : Layer ℝ} {h K n N p : ℝ} (ha : Axial l h K n N p) (t : ℝ) {m : CVec ℝ} (hm : m.length = 1) :
    (motion l t m ⟨0, 0, 0⟩ ⟨0, 0, 0⟩).z = 220880 / (1 + l.damping ^ 2) * (1 - m.z ^ 2) * push l h K n N p m.z := by
  have hu : m.x ^ 2 + m.y ^ 2 + m.z ^ 2 = 1 := by
    rw [CVec.length_eq, Real.sqrt_eq_one] at hm
    simpa [CVec.normSq, sq] using hm
  have hxy : m.x ^ 2 + m.y ^ 2 = 1 - m.z ^ 2 := by linarith
  have hpol : polariser l ⟨0, 0, 0⟩ ⟨0, 0, 0⟩ = ⟨0, 0, p⟩ := by rw [polariser, if_pos ha.fixed, ha.reference]
  have hd : m.dot (⟨0, 0, p⟩ : CVec ℝ) = p * m.z := by simp [CVec.dot, mul_comm]
  have hs : (spinTorque l t m ⟨0, 0, p⟩).z = (1 - m.z ^ 2) * spinPush l p m.z := by
    unfold spinTorque spinPush
    split
    · rw [sttEfficiency, sttDenominator, sttAmplitude, hd, ha.current t, ← hxy]
      split <;>
      · simp [smul, CVec.cross]
        ring
    · split
      · unfold sotFields
        rw [ha.current t, ha.fieldLike t, ha.dampingLike t, ← hxy]
        split <;>
        · simp [smul, CVec.cross]
          ring
      · simp
  unfold motion
  rw [hpol, axial_field ha]
  simp only [smul, CVec.sub_z, hs]
  rw [push, ← hxy]
  simp only [CVec.cross]
  ring

theorem axial_track {j : Junction ℝ} {l : Layer ℝ} (hj : j.layers = [l]) {h K n N p : ℝ} (ha : Axial l h K n N p) {m : Nat → ℝ → CVec ℝ}
    (hm : ∀ T, 0 ≤ T → Track j m T) {t : ℝ} (ht : 0 ≤ t) :
    HasDerivAt (fun s => (m 0 s).z) (220880 / (1 + l.damping ^ 2) * (1 - (m 0 t).z ^ 2) * push l h K n N p (m 0 t).z) t ∧
      -1 ≤ (m 0 t).z ∧ (m 0 t).z ≤ 1 := by
  have hl : j.layers[0]? = some l := by rw [hj]; rfl
  have hu := track_unit (hm t ht) ⟨ht, le_rfl⟩ hl
  obtain ⟨lo, hi, hlo, hhi, hmo⟩ := (hm t ht).solves
  have := (hmo 0 l hl t ⟨by linarith, hhi⟩).2.2
  have e1 : lower m 0 t = ⟨0, 0, 0⟩ := rfl
  have e2 : upper j.layers.length m 0 t = ⟨0, 0, 0⟩ := by simp [upper, hj]
  rw [e1, e2, C126_rate ha t hu] at this
  have hc := Relax.length_comp hu.le
  exact ⟨this, (abs_le.1 hc.2.2).1, (abs_le.1 hc.2.2).2⟩

theorem axial_start {j : Junction ℝ} {l : Layer ℝ} (hj : j.layers = [l]) {m : Nat → ℝ → CVec ℝ} (hm : ∀ T, 0 ≤ T → Track j m T) :
    m 0 0 = l.mag := (hm 0 le_rfl).start 0 l (by rw [hj]; rfl)

/-- C126: where the push is positive from the start up to the pole, the layer goes to the pole, exponentially fast. -/
theorem C126_switches {j : Junction ℝ} {l : Layer ℝ} (hj : j.layers = [l]) {h K n N p : ℝ} (ha : Axial l h K n N p)
    {m : Nat → ℝ → CVec ℝ} (hm : ∀ T, 0 ≤ T → Track j m T) {b δ : ℝ} (hδ : 0 < δ) (hb : -1 < b) (hb1 : b < 1) (h0 : b ≤ l.mag.z)
    (hq : ∀ z, b ≤ z → z ≤ 1 → δ ≤ push l h K n N p z) {t : ℝ} (ht : 0 ≤ t) :
    b ≤ (m 0 t).z ∧
      (1 - (m 0 t).z) * (1 + l.mag.z) ≤ (1 - l.mag.z) * (1 + (m 0 t).z) * Real.exp (-(2 * (220880 / (1 + l.damping ^ 2)) * δ * t)) := by
  rw [← axial_start hj hm] at h0 ⊢
  exact rises (z := fun t => (m 0 t).z) (q := push l h K n N p) (by positivity) hδ (fun t ht => (axial_track hj ha hm ht).1)
    (fun t ht => (axial_track hj ha hm ht).2.2) hb hb1 h0 hq ht

theorem regular_track {j : Junction ℝ} {l : Layer ℝ} (hr : Undriven j l) : ∃ m, ∀ T, 0 ≤ T → Track j m T := by
  have hall : ∀ {P : Layer ℝ → Prop}, P l → ∀ l' ∈ j.layers, P l' := by
    intro P hP l' hl'
    rw [hr.single, List.mem_singleton] at hl'
    rwa [hl']
  exact C111_global j (hall hr.unit) (hall hr.volume) (hall hr.quiet) (hall hr.smooth) (hall hr.poleless)

theorem goes_of_tendsto {j : Junction ℝ} {l : Layer ℝ} (hj : j.layers = [l]) {m : Nat → ℝ → CVec ℝ} (hm : ∀ T, 0 ≤ T → Track j m T)
    {z : ℝ} (h : Filter.Tendsto (fun t => (m 0 t).z) Filter.atTop (nhds z)) : GoesTo j z := by
  intro mode ε hε
  obtain ⟨S, hS⟩ := Filter.eventually_atTop.1 (h.eventually (Metric.ball_mem_nhds z (half_pos hε)))
  refine ⟨S, fun T => ?_⟩
  by_cases hT : 0 ≤ T
  swap
  · refine ⟨1, one_pos, fun n dt hdt _ _ hn => absurd (le_trans (by positivity) hn) hT⟩
  obtain ⟨C, r, hr, hn, -⟩ := C111_all j m T (hm T hT) mode
  have hpos : 0 < |C| + 1 := by positivity
  refine ⟨min r (ε / 2 / (|C| + 1)), lt_min hr (by positivity), fun n dt hdt hdr hSn hnT we en k hk l' hl' => ?_⟩
  have d1 : dt ≤ r := hdr.trans (min_le_left _ _)
  have d2 : dt ≤ ε / 2 / (|C| + 1) := hdr.trans (min_le_right _ _)
  rw [le_div_iff₀ hpos] at d2
  have hlen := loop_length (hm T hT).quiet hk
  rw [hj] at hlen
  obtain ⟨i, hi, hil⟩ := List.getElem_of_mem hl'
  have hi0 : i = 0 := by simp only [hlen, List.length_cons, List.length_nil] at hi; omega
  subst hi0
  have hnear := hn n dt hdt d1 hnT we en k hk 0 l' (by rw [← hil]; exact List.getElem?_eq_getElem hi)
  rw [pow_one] at hnear
  have h1 := (Relax.length_comp hnear).2.2
  rw [CVec.sub_z] at h1
  have h2 := hS (n * dt) hSn
  rw [Real.dist_eq] at h2
  have h3 := abs_add_le (l'.mag.z - (m 0 (n * dt)).z) ((m 0 (n * dt)).z - z)
  rw [sub_add_sub_cancel] at h3
  have h4 : C * dt ≤ |C| * dt := mul_le_mul_of_nonneg_right (le_abs_self C) hdt.le
  nlinarith

/-- C126, with spin torques: if the push is positive from the start up to the pole, every simulation ends at the pole. -/
theorem C126_up {j : Junction ℝ} {l : Layer ℝ} (hr : Undriven j l) {h K n N p : ℝ} (ha : Axial l h K n N p) {b δ : ℝ} (hδ : 0 < δ)
    (hb : -1 < b) (hb1 : b < 1) (h0 : b ≤ l.mag.z) (hq : ∀ z, b ≤ z → z ≤ 1 → δ ≤ push l h K n N p z) : GoesTo j 1 := by
  obtain ⟨m, hm⟩ := regular_track hr
  refine goes_of_tendsto hr.single hm ?_
  rw [← axial_start hr.single hm] at h0
  exact tendsto_rises (z := fun t => (m 0 t).z) (q := push l h K n N p) (by positivity) hδ
    (fun t ht => (axial_track hr.single ha hm ht).1) (fun t ht => (axial_track hr.single ha hm ht).2.2) hb hb1 h0 hq

/-- C126, with spin torques: if the push is negative from the start down to the other pole, every simulation ends there. -/
theorem C126_down {j : Junction ℝ} {l : Layer ℝ} (hr : Undriven j l) {h K n N p : ℝ} (ha : Axial l h K n N p) {b δ : ℝ} (hδ : 0 < δ)
    (hb : -1 < b) (hb1 : b < 1) (h0 : l.mag.z ≤ b) (hq : ∀ z, -1 ≤ z → z ≤ b → push l h K n N p z ≤ -δ) : GoesTo j (-1) := by
  obtain ⟨m, hm⟩ := regular_track hr
  refine goes_of_tendsto hr.single hm ?_
  rw [← axial_start hr.single hm] at h0
  exact tendsto_falls (z := fun t => (m 0 t).z) (q := push l h K n N p) (by positivity) hδ
    (fun t ht => (axial_track hr.single ha hm ht).1) (fun t ht => (axial_track hr.single ha hm ht).2.1) hb hb1 h0 hq

theorem regular_z {j : Junction ℝ} {l : Layer ℝ} (hr : Undriven j l) : -1 ≤ l.mag.z ∧ l.mag.z ≤ 1 :=
  abs_le.1 (Relax.length_comp hr.unit.le).2.2

/-- C126, easy axis: without spin torques the simulated hysteresis loop is the square one whose coercive field is the anisotropy
field less the demagnetising field, `k`. In a field above `k` the layer ends along it from every start but the opposite pole, in a
smaller field it stays on its side of the barrier at `-h / k`. -/
theorem C126_loop {j : Junction ℝ} {l : Layer ℝ} (hr : Undriven j l) {h K n N p : ℝ} (ha : Axial l h K n N p) (hd : 0 < l.damping)
    (h1 : l.includeSTT = false) (h2 : l.includeSOT = false) (hk : 0 < stiffness l.Ms K n N) :
    (stiffness l.Ms K n N < h → -1 < l.mag.z → GoesTo j 1) ∧
    (h < -stiffness l.Ms K n N → l.mag.z < 1 → GoesTo j (-1)) ∧
    (-stiffness l.Ms K n N < h → h < stiffness l.Ms K n N →
      (-h / stiffness l.Ms K n N < l.mag.z → GoesTo j 1) ∧ (l.mag.z < -h / stiffness l.Ms K n N → GoesTo j (-1))) := by
  obtain ⟨hz, hz'⟩ := regular_z hr
  have hp : ∀ z, push l h K n N p z = l.damping * (h + stiffness l.Ms K n N * z) := by
    intro z; simp [push, spinPush, h1, h2]
  generalize stiffness l.Ms K n N = k at *
  have up : -1 < l.mag.z → 0 < h + k * l.mag.z → 0 < h + k → GoesTo j 1 := by
    intro a1 a2 a3
    obtain ⟨b, hb1, hb2⟩ : ∃ b, (-1 < b ∧ b < 1 ∧ b ≤ l.mag.z) ∧ 0 < h + k * b := by
      rcases lt_or_eq_of_le hz' with e | e
      · exact ⟨l.mag.z, ⟨a1, e, le_rfl⟩, a2⟩
      · refine ⟨max 0 (1 - (h + k) / (2 * k)), ⟨lt_of_lt_of_le (by norm_num) (le_max_left _ _), max_lt (by norm_num) ?_, ?_⟩, ?_⟩
        · have : 0 < (h + k) / (2 * k) := by positivity
          linarith
        · rw [e]
          refine max_le (by norm_num) ?_
          have : 0 < (h + k) / (2 * k) := by positivity
          linarith
        · have e2 : k * (1 - (h + k) / (2 * k)) = k - (h + k) / 2 := by field_simp
          have := mul_le_mul_of_nonneg_left (le_max_right 0 (1 - (h + k) / (2 * k))) hk.le
          linarith
    refine C126_up hr ha (mul_pos hd hb2) hb1.1 hb1.2.1 hb1.2.2 fun z z1 _ => ?_
    rw [hp]
    exact mul_le_mul_of_nonneg_left (by nlinarith) hd.le
  have down : l.mag.z < 1 → h + k * l.mag.z < 0 → h - k < 0 → GoesTo j (-1) := by
    intro a1 a2 a3
    obtain ⟨b, hb1, hb2⟩ : ∃ b, (-1 < b ∧ b < 1 ∧ l.mag.z ≤ b) ∧ h + k * b < 0 := by
      rcases lt_or_eq_of_le hz with e | e
      · exact ⟨l.mag.z, ⟨e, a1, le_rfl⟩, a2⟩
      · have hpos : 0 < (k - h) / (2 * k) := div_pos (by linarith) (by linarith)
        refine ⟨min 0 (-1 + (k - h) / (2 * k)), ⟨lt_min (by norm_num) (by linarith), lt_of_le_of_lt (min_le_left _ _) (by norm_num), ?_⟩, ?_⟩
        · rw [← e]
          exact le_min (by norm_num) (by linarith)
        · have e2 : k * (-1 + (k - h) / (2 * k)) = -k + (k - h) / 2 := by field_simp
          have := mul_le_mul_of_nonneg_left (min_le_right 0 (-1 + (k - h) / (2 * k))) hk.le
          linarith
    refine C126_down hr ha (δ := -(l.damping * (h + k * b))) (by nlinarith [mul_pos hd (neg_pos.2 hb2)]) hb1.1 hb1.2.1 hb1.2.2
      fun z _ z1 => ?_
    rw [hp, neg_neg]
    exact mul_le_mul_of_nonneg_left (by nlinarith) hd.le
  refine ⟨fun a b => up b (by nlinarith) (by linarith), fun a b => down b (by nlinarith) (by linarith), fun a b => ⟨fun c => ?_, fun c => ?_⟩⟩
  · rw [div_lt_iff₀ hk] at c
    refine up (lt_of_not_ge fun d => ?_) (by linarith) (by linarith)
    nlinarith
  · rw [lt_div_iff₀ hk] at c
    refine down (lt_of_not_ge fun d => ?_) (by linarith) (by linarith)
    nlinarith

/-- C126, hard axis: with a negative stiffness and a field below it in size the simulated loop is a straight line, the layer ends at
`h / |k|` from every start but the poles. -/
theorem C126_hard {j : Junction ℝ} {l : Layer ℝ} (hr : Undriven j l) {h K n N p : ℝ} (ha : Axial l h K n N p) (hd : 0 < l.damping)
    (h1 : l.includeSTT = false) (h2 : l.includeSOT = false) (hk : stiffness l.Ms K n N < 0) (hh : |h| < -stiffness l.Ms K n N)
    (hz : -1 < l.mag.z) (hz' : l.mag.z < 1) : GoesTo j (h / -stiffness l.Ms K n N) := by
  obtain ⟨m, hm⟩ := regular_track hr
  refine goes_of_tendsto hr.single hm ?_
  rw [← axial_start hr.single hm] at hz hz'
  have hp : ∀ z, push l h K n N p z = l.damping * (h + stiffness l.Ms K n N * z) := by
    intro z; simp [push, spinPush, h1, h2]
  have hder := fun t ht => (axial_track hr.single ha hm (t := t) ht).1
  simp only [hp] at hder
  generalize stiffness l.Ms K n N = k at *
  obtain ⟨hl, hu⟩ := abs_lt.1 hh
  have hk' : 0 < -k := by linarith
  refine settles (z := fun t => (m 0 t).z) (c := 220880 / (1 + l.damping ^ 2)) (k := l.damping * -k) (by positivity) (mul_pos hd hk')
    (fun t ht => (hder t ht).congr_deriv ?_) ?_ ?_ hz hz'
  · have : l.damping * -k * (h / -k - (m 0 t).z) = l.damping * (h + k * (m 0 t).z) := by
      have hk0 : k ≠ 0 := hk.ne
      field_simp
      ring
    rw [this]
  · rw [lt_div_iff₀ hk']; linarith
  · rw [div_lt_iff₀ hk']; linarith

theorem push_continuous {l : Layer ℝ} {h K n N p z : ℝ} (ha : Axial l h K n N p) (hp : NoPole l ⟨0, 0, z⟩ ⟨0, 0, 0⟩ ⟨0, 0, 0⟩) :
    ContinuousAt (push l h K n N p) z := by
  have hpol : polariser l ⟨0, 0, 0⟩ ⟨0, 0, 0⟩ = ⟨0, 0, p⟩ := by rw [polariser, if_pos ha.fixed, ha.reference]
  unfold push
  refine ContinuousAt.add (by fun_prop) ?_
  unfold spinPush
  by_cases h1 : l.includeSTT = true
  · have hp := hp h1
    simp only [if_pos h1]
    rw [hpol, sttDenominator] at hp
    by_cases h2 : l.alternativeSTTSet = true
    · simp only [if_pos h2] at hp ⊢
      refine ContinuousAt.mul continuousAt_const (ContinuousAt.div continuousAt_const (by fun_prop) ?_)
      simpa [CVec.dot, mul_comm] using hp
    · simp only [if_neg h2] at hp ⊢
      refine ContinuousAt.mul continuousAt_const (ContinuousAt.div continuousAt_const (by fun_prop) ?_)
      simpa [CVec.dot, mul_comm] using hp
  · simp only [if_neg h1]
    exact continuousAt_const

/-- C126, critical current: the state along `-z` is stable in the simulation when the push there is negative, that is, when the spin
torque stays below `α (k - h)`: all starts near it end in it. -/
theorem C126_stable {l : Layer ℝ} {h K n N p : ℝ} (ha : Axial l h K n N p) (hp : NoPole l ⟨0, 0, -1⟩ ⟨0, 0, 0⟩ ⟨0, 0, 0⟩)
    (hs : spinPush l p (-1) < l.damping * (stiffness l.Ms K n N - h)) :
    ∃ b : ℝ, -1 < b ∧ ∀ (j : Junction ℝ) (v : CVec ℝ), Undriven j { l with mag := v } → v.z ≤ b → GoesTo j (-1) := by
  have hneg : push l h K n N p (-1) < 0 := by unfold push; linarith
  obtain ⟨e, he, hb⟩ := Metric.eventually_nhds_iff.1 ((push_continuous ha hp).eventually (gt_mem_nhds (show _ < push l h K n N p (-1) / 2 by linarith)))
  refine ⟨min (-1 + e / 2) 0, lt_min (by linarith) (by norm_num), fun j v hr hv => ?_⟩
  refine C126_down hr (l := { l with mag := v }) ⟨ha.1, ha.2, ha.3, ha.4, ha.5, ha.6, ha.7, ha.8, ha.9⟩ (δ := -(push l h K n N p (-1) / 2)) (by linarith)
    (lt_min (by linarith) (by norm_num)) (lt_of_le_of_lt (min_le_right _ _) (by norm_num)) hv fun z z1 z2 => ?_
  rw [neg_neg]
  refine (hb ?_).le
  rw [Real.dist_eq, sub_neg_eq_add, abs_of_nonneg (by linarith)]
  have := z2.trans (min_le_left _ _)
  linarith

/-- C126, critical current: above it the state is unstable. Along the exact solution every start near `-z`, however close, is driven out
of a neighbourhood that does not depend on the start. -/
theorem C126_unstable {l : Layer ℝ} {h K n N p : ℝ} (ha : Axial l h K n N p) (hp : NoPole l ⟨0, 0, -1⟩ ⟨0, 0, 0⟩ ⟨0, 0, 0⟩)
    (hs : l.damping * (stiffness l.Ms K n N - h) < spinPush l p (-1)) :
    ∃ b : ℝ, -1 < b ∧ ∀ (j : Junction ℝ) (v : CVec ℝ) (m : Nat → ℝ → CVec ℝ), j.layers = [{ l with mag := v }] → -1 < v.z →
      (∀ T, 0 ≤ T → Track j m T) → ∃ t, 0 ≤ t ∧ b < (m 0 t).z := by
  have hpos : 0 < push l h K n N p (-1) := by unfold push; linarith
  obtain ⟨e, he, hb⟩ := Metric.eventually_nhds_iff.1 ((push_continuous ha hp).eventually (lt_mem_nhds (show push l h K n N p (-1) / 2 < _ by linarith)))
  refine ⟨min (-1 + e / 2) 0, lt_min (by linarith) (by norm_num), fun j v m hj hv hm => ?_⟩
  by_contra hcon
  push Not at hcon
  have ha' : Axial { l with mag := v } h K n N p := ⟨ha.1, ha.2, ha.3, ha.4, ha.5, ha.6, ha.7, ha.8, ha.9⟩
  have hpush : ∀ t, 0 ≤ t → push l h K n N p (-1) / 2 < push l h K n N p (m 0 t).z := by
    intro t ht
    refine hb ?_
    have h1 := (axial_track hj ha' hm ht).2.1
    have h2 := (hcon t ht).trans (min_le_left _ _)
    rw [Real.dist_eq, sub_neg_eq_add, abs_of_nonneg (by linarith)]
    linarith
  -- the equation with the push cut off from below agrees along the curve, and would drive it to the other pole
  have h0 : (m 0 0).z = v.z := by rw [axial_start hj hm]
  have hlim := tendsto_rises (z := fun t => (m 0 t).z) (q := fun z => max (push l h K n N p (-1) / 2) (push l h K n N p z)) (b := v.z)
    (c := 220880 / (1 + l.damping ^ 2)) (δ := push l h K n N p (-1) / 2) (by positivity) (by linarith) (fun t ht => by
      refine (axial_track hj ha' hm ht).1.congr_deriv ?_
      rw [max_eq_right (hpush t ht).le]
      rfl) (fun t ht => (axial_track hj ha' hm ht).2.2) hv (by
        have := (hcon 0 le_rfl).trans (min_le_right _ _)
        linarith) (by rw [h0]) (fun y _ _ => le_max_left _ _)
  obtain ⟨t, ht, h1⟩ := ((hlim.eventually (lt_mem_nhds (show (1 / 2 : ℝ) < 1 by norm_num))).and (Filter.eventually_ge_atTop 0)).exists
  have := (hcon t h1).trans (min_le_right _ _)
  linarith

/-! ## Cases -/

/-- A layer with anisotropy `K` in the field `h`, tilted by a factor 4/5 against the axis; spin transfer on request. -/
noncomputable def axisLayer (h K : ℝ) (stt : Bool) : Layer ℝ :=
  { Layer.demo with
    includeSTT := stt, damping := 1 / 10, mag := ⟨3 / 5, 0, -(4 / 5)⟩, referenceLayer := ⟨0, 0, 1⟩,
    externalFieldDriver := .ofVec ⟨0, 0, h⟩, anisotropyDriver := .constantDriver K,
    demagTensor := ⟨⟨1 / 4, 0, 0⟩, ⟨0, 1 / 4, 0⟩, ⟨0, 0, 1 / 2⟩⟩ }

theorem axisLayer_axial (h K : ℝ) (stt : Bool) : Axial (axisLayer h K stt) h K (1 / 4) (1 / 2) 1 := by
  refine ⟨fun t => ?_, rfl, fun t => ?_, rfl, rfl, rfl, fun t => ?_, fun t => ?_, fun t => ?_⟩
  · apply CVec.ext <;>
      simp [axisLayer, Layer.demo, AxialDriver.value, AxialDriver.null, AxialDriver.ofVec, ScalarDriver.value, ScalarDriver.null,
        ScalarDriver.constantDriver]
  · simp [axisLayer, ScalarDriver.value, ScalarDriver.constantDriver]
  all_goals simp [axisLayer, Layer.demo, ScalarDriver.value, ScalarDriver.constantDriver, ScalarDriver.null]

theorem axisLayer_regular (h K : ℝ) (stt : Bool) : Undriven { demoJ with layers := [axisLayer h K stt] } (axisLayer h K stt) := by
  have ax : SmoothAxes (AxialDriver.null : AxialDriver ℝ) := ⟨.inl rfl, .inl rfl, .inl rfl⟩
  refine ⟨rfl, ?_, ?_, ?_, ?_, ?_⟩
  · rw [CVec.length_eq, Real.sqrt_eq_one]
    norm_num [axisLayer, CVec.normSq]
  · norm_num [axisLayer, Layer.demo]
  · rw [quiet_iff]
    exact ⟨rfl, by simp [axisLayer, Layer.demo]⟩
  · exact ⟨.inl rfl, .inl rfl, .inl rfl, .inl rfl, .inl rfl, .inl rfl, .inl rfl, .inl rfl, ax, ax, ax,
      ⟨.inl rfl, .inl rfl, .inl rfl⟩, ax, ax⟩
  · exact C111_poleless _ fun _ => ⟨by simp [axisLayer, CVec.length_eq, CVec.normSq], by norm_num [axisLayer, Layer.demo]⟩

theorem axisLayer_stiffness (h K : ℝ) (stt : Bool) : stiffness (axisLayer h K stt).Ms K (1 / 4) (1 / 2) = 2 * K - 1 / 4 / 1.257e-6 := by
  norm_num [stiffness, axisLayer, Layer.demo]

/-- The coercive field is that of the theory: 10⁶ A/m do not switch this layer, 2 · 10⁶ A/m do. -/
example : GoesTo { demoJ with layers := [axisLayer 1e6 1e6 false] } (-1) ∧ GoesTo { demoJ with layers := [axisLayer 2e6 1e6 false] } 1 := by
  have hk := axisLayer_stiffness
  constructor
  · have := C126_loop (axisLayer_regular 1e6 1e6 false) (axisLayer_axial 1e6 1e6 false) (by norm_num [axisLayer]) rfl rfl
      (by rw [hk]; norm_num)
    rw [hk] at this
    refine (this.2.2 (by norm_num) (by norm_num)).2 ?_
    norm_num [axisLayer]
  · have := C126_loop (axisLayer_regular 2e6 1e6 false) (axisLayer_axial 2e6 1e6 false) (by norm_num [axisLayer]) rfl rfl
      (by rw [hk]; norm_num)
    rw [hk] at this
    exact this.1 (by norm_num) (by norm_num [axisLayer])

/-- Without anisotropy the axis is a hard one. -/
example : GoesTo { demoJ with layers := [axisLayer 1000 0 false] } (1000 / -(2 * 0 - 1 / 4 / 1.257e-6)) := by
  have hk := axisLayer_stiffness
  have := C126_hard (axisLayer_regular 1000 0 false) (axisLayer_axial 1000 0 false) (by norm_num [axisLayer]) rfl rfl
    (by rw [hk]; norm_num) (by rw [hk]; norm_num [abs_of_pos]) (by norm_num [axisLayer]) (by norm_num [axisLayer])
  rwa [hk] at this

/-- The critical current: 1 A/m² does not destabilise the state along `-z`, 10²² A/m² do. -/
example : ∃ b : ℝ, -1 < b ∧ ∀ (j : Junction ℝ) (v : CVec ℝ), Undriven j { axisLayer 0 1e6 true with mag := v } → v.z ≤ b → GoesTo j (-1) := by
  refine C126_stable (axisLayer_axial 0 1e6 true) ?_ ?_
  · intro _
    simp [sttDenominator, axisLayer, Layer.demo]
  · rw [axisLayer_stiffness]
    have hs : spinPush (axisLayer 0 1e6 true) 1 (-1) ≤ 1 := by
      simp [spinPush, axisLayer, Layer.demo, ScalarDriver.value, ScalarDriver.constantDriver]
      have h1 : (662607015 / 10 ^ 42 / (2 * Real.pi) : ℝ) ≤ 662607015 / 10 ^ 42 / 4 :=
        div_le_div_of_nonneg_left (by norm_num) (by norm_num) (by linarith [Real.two_le_pi])
      have h2 : (662607015 / 10 ^ 42 / (2 * Real.pi) / (160217662 / 10 ^ 27) * (1 + 1)⁻¹ : ℝ) =
          662607015 / 10 ^ 42 / (2 * Real.pi) * (10 ^ 27 / 160217662 * (1 + 1)⁻¹) := by rw [div_eq_mul_inv _ (160217662 / 10 ^ 27 : ℝ), inv_div]; ring
      rw [h2]
      refine le_trans (mul_le_mul_of_nonneg_right h1 (by norm_num)) ?_
      norm_num
    refine lt_of_le_of_lt hs ?_
    norm_num [axisLayer]

example : ∃ b : ℝ, -1 < b ∧ ∀ (j : Junction ℝ) (v : CVec ℝ) (m : Nat → ℝ → CVec ℝ),
    j.layers = [{ axisLayer 0 1e6 true with currentDriver := .constantDriver 1e22, mag := v }] → -1 < v.z →
      (∀ T, 0 ≤ T → Track j m T) → ∃ t, 0 ≤ t ∧ b < (m 0 t).z := by
  have ha := axisLayer_axial 0 1e6 true
  refine C126_unstable (l := { axisLayer 0 1e6 true with currentDriver := .constantDriver 1e22 }) (h := 0) (K := 1e6) (n := 1 / 4)
    (N := 1 / 2) (p := 1) ⟨ha.1, ha.2, ha.3, ha.4, ha.5, ha.6, fun t => ?_, ha.8, ha.9⟩ ?_ ?_
  · simp [ScalarDriver.value, ScalarDriver.constantDriver]
  · intro _
    simp [sttDenominator, axisLayer, Layer.demo]
  · have hs : 200000 ≤ spinPush { axisLayer 0 1e6 true with currentDriver := .constantDriver 1e22 } 1 (-1) := by
      simp [spinPush, axisLayer, Layer.demo, ScalarDriver.value, ScalarDriver.constantDriver]
      have h1 : (662607015 / 10 ^ 42 / 8 : ℝ) ≤ 662607015 / 10 ^ 42 / (2 * Real.pi) :=
        div_le_div_of_nonneg_left (by norm_num) (by linarith [Real.pi_pos]) (by linarith [Real.pi_le_four])
      have h2 : (662607015 / 10 ^ 42 / (2 * Real.pi) * 10 ^ 22 / (160217662 / 10 ^ 27) * (1 + 1)⁻¹ : ℝ) =
          662607015 / 10 ^ 42 / (2 * Real.pi) * (10 ^ 22 * (10 ^ 27 / 160217662) * (1 + 1)⁻¹) := by
        rw [div_eq_mul_inv _ (160217662 / 10 ^ 27 : ℝ), inv_div]; ring
      rw [h2]
      refine le_trans ?_ (mul_le_mul_of_nonneg_right h1 (by norm_num))
      norm_num
    refine lt_of_lt_of_le ?_ hs
    have := axisLayer_stiffness 0 1e6 true
    simp only [axisLayer] at this ⊢
    rw [this]
    norm_num

end Junction
