import Verif.Props.SwitchingTime

set_option linter.unusedSectionVars false

/-!
C141: spin-torque oscillators. The setting is that of C126 and C140: everything about the layer shares the axis `z`. Where the spin
torque balances the damping the layer precesses forever; theory gives the angle and the frequency.
-/

namespace Spec
open Layer

/-- What the spin torques add to the precession about the axis, in A/m. -/
noncomputable def spinTurn (l : Layer ℝ) (p z : ℝ) : ℝ :=
  if l.includeSTT = true then
    -(6.62607015e-34 / (2 * Real.pi) * l.currentDriver.value 0 / (1.60217662e-19 * l.Ms * l.thickness) * l.beta * p *
      (if l.alternativeSTTSet = true then l.spinPolarisation / (1 + l.slonczewski * (p * z))
      else l.spinPolarisation * l.slonczewski ^ 2 / (l.slonczewski ^ 2 + 1 + (l.slonczewski ^ 2 - 1) * (p * z))))
  else if l.includeSOT = true then
    if l.dynamicSOT = true then (l.fieldLikeTorqueDriver.value 0 - l.damping * l.dampingLikeTorqueDriver.value 0) * p
    else (l.fieldLikeTorque - l.damping * l.dampingLikeTorque) * l.currentDriver.value 0 * p
  else 0

/-- The angular frequency of the precession when the component along the axis is `z`. -/
noncomputable def turning (l : Layer ℝ) (h K n N p z : ℝ) : ℝ :=
  220880 / (1 + l.damping ^ 2) * (h + stiffness l.Ms K n N * z + spinTurn l p z)

/-- Precession about the axis with the angular frequency `w`. -/
noncomputable def precession (m : CVec ℝ) (w t : ℝ) : CVec ℝ :=
  ⟨Real.cos (w * t) * m.x - Real.sin (w * t) * m.y, Real.sin (w * t) * m.x + Real.cos (w * t) * m.y, m.z⟩

end Spec

namespace Switching
open Spec Set Junction Layer Filter Topology

variable {j : Junction ℝ} {l : Layer ℝ} {h K n N p y : ℝ} {m : Nat → ℝ → CVec ℝ}

/-- C141: the equation of motion in terms of the push along the axis and the turning about it. -/
theorem C141_rates (ha : Axial l h K n N p) (t : ℝ) {m : CVec ℝ} (hm : m.length = 1) :
    motion l t m ⟨0, 0, 0⟩ ⟨0, 0, 0⟩ =
      ⟨-(turning l h K n N p m.z * m.y) - 220880 / (1 + l.damping ^ 2) * push l h K n N p m.z * (m.z * m.x),
        turning l h K n N p m.z * m.x - 220880 / (1 + l.damping ^ 2) * push l h K n N p m.z * (m.z * m.y),
        220880 / (1 + l.damping ^ 2) * push l h K n N p m.z * (1 - m.z ^ 2)⟩ := by
  have hz := C126_rate ha t hm
  have hpol : polariser l ⟨0, 0, 0⟩ ⟨0, 0, 0⟩ = ⟨0, 0, p⟩ := by rw [polariser, if_pos ha.fixed, ha.reference]
  have hd : m.dot (⟨0, 0, p⟩ : CVec ℝ) = p * m.z := by simp [CVec.dot, mul_comm]
  have hs : (spinTorque l t m ⟨0, 0, p⟩).x = -(spinTurn l p m.z * m.y) - spinPush l p m.z * (m.z * m.x) ∧
      (spinTorque l t m ⟨0, 0, p⟩).y = spinTurn l p m.z * m.x - spinPush l p m.z * (m.z * m.y) := by
    unfold spinTorque spinPush spinTurn
    split
    · rw [sttEfficiency, sttDenominator, sttAmplitude, hd, ha.current t]
      split <;>
      · simp only [smul, CVec.cross, CVec.sub_x, CVec.sub_y]
        constructor <;> ring
    · split
      · unfold sotFields
        rw [ha.current t, ha.fieldLike t, ha.dampingLike t]
        split <;>
        · simp only [smul, CVec.cross, CVec.sub_x, CVec.sub_y]
          constructor <;> ring
      · simp
  apply CVec.ext
  · unfold motion
    rw [hpol, axial_field ha]
    simp only [smul, CVec.sub_x, hs.1, CVec.cross, turning, push]
    ring
  · unfold motion
    rw [hpol, axial_field ha]
    simp only [smul, CVec.sub_y, hs.2, CVec.cross, turning, push]
    ring
  · rw [hz]
    ring

theorem precession_sq (m : CVec ℝ) (w t : ℝ) : (precession m w t).length = m.length := by
  rw [CVec.length_eq, CVec.length_eq]
  congr 1
  simp only [CVec.normSq, precession]
  linear_combination (m.x * m.x + m.y * m.y) * Real.sin_sq_add_cos_sq (w * t)

/-- C141: a layer that starts where damping and spin torque balance precesses at its angle with the frequency theory gives. -/
theorem C141_orbit (hr : Undriven j l) (ha : Axial l h K n N p) (hb : push l h K n N p l.mag.z = 0) (T : ℝ) :
    Track j (fun _ => precession l.mag (turning l h K n N p l.mag.z)) T := by
  set w := turning l h K n N p l.mag.z with hw
  have hall : ∀ {P : Layer ℝ → Prop}, P l → ∀ l' ∈ j.layers, P l' := by
    intro P hP l' hl'
    rw [hr.single, List.mem_singleton] at hl'
    rwa [hl']
  have hget : ∀ {i : Nat} {l' : Layer ℝ}, j.layers[i]? = some l' → i = 0 ∧ l' = l := by
    intro i l' hi
    rw [hr.single] at hi
    match i, hi with
    | 0, hi => exact ⟨rfl, by simpa using hi.symm⟩
    | i + 1, hi => simp at hi
  have hup : ∀ t, upper j.layers.length (fun _ => precession l.mag w) 0 t = ⟨0, 0, 0⟩ := fun t => by simp [upper, hr.single]
  have hlow : ∀ t, lower (fun _ => precession l.mag w) 0 t = ⟨0, 0, 0⟩ := fun t => rfl
  have hlen : ∀ t, (precession l.mag w t).length = 1 := fun t => (precession_sq _ _ _).trans hr.unit
  refine ⟨⟨-1, T + 1, by norm_num, by linarith, fun i l' hi t _ => ?_⟩, fun i l' hi => ?_, hall hr.unit, hall hr.volume, hall hr.quiet,
    fun l' hl' t _ => hall (P := fun l => Smooth l t) (Junction.C111_drivers l hr.smooth t) l' hl', fun i l' hi t _ => ?_⟩
  · obtain ⟨rfl, rfl⟩ := hget hi
    rw [hup, hlow, C141_rates ha t (hlen t)]
    have hz : (precession l'.mag w t).z = l'.mag.z := rfl
    rw [hz, hb, ← hw]
    have h1 : HasDerivAt (fun t : ℝ => w * t) w t := by simpa using (hasDerivAt_id t).const_mul w
    refine ⟨?_, ?_, ?_⟩
    · refine ((h1.cos.mul_const l'.mag.x).sub (h1.sin.mul_const l'.mag.y)).congr_deriv ?_
      simp only [precession]
      ring
    · refine ((h1.sin.mul_const l'.mag.x).add (h1.cos.mul_const l'.mag.y)).congr_deriv ?_
      simp only [precession]
      ring
    · refine (hasDerivAt_const t l'.mag.z).congr_deriv ?_
      ring
  · obtain ⟨rfl, rfl⟩ := hget hi
    apply CVec.ext <;> simp [precession]
  · obtain ⟨rfl, rfl⟩ := hget hi
    rw [hup, hlow]
    exact hr.poleless _ _ _ (hlen t).le (by simp [CVec.length_eq, CVec.normSq]) (by simp [CVec.length_eq, CVec.normSq])

/-- C141: runs of such a layer converge to the precession, each with the order of its solver. -/
theorem C141_runs (hr : Undriven j l) (ha : Axial l h K n N p) (hb : push l h K n N p l.mag.z = 0) (T : ℝ) :
    Converges j .RK4 (fun _ => precession l.mag (turning l h K n N p l.mag.z)) T 4 ∧
    Converges j .DORMAND_PRICE (fun _ => precession l.mag (turning l h K n N p l.mag.z)) T 4 ∧
    Converges j .HEUN (fun _ => precession l.mag (turning l h K n N p l.mag.z)) T 2 ∧
    Converges j .EULER_HEUN (fun _ => precession l.mag (turning l h K n N p l.mag.z)) T 1 := by
  have ht := C141_orbit hr ha hb T
  have h1 : j.layers.length = 1 := by rw [hr.single]; rfl
  exact ⟨Junction.C111_rk4_partial j _ T ht h1 .RK4 (.inl rfl), Junction.C111_rk4_partial j _ T ht h1 .DORMAND_PRICE (.inr rfl),
    Junction.C111_heun j _ T ht, Junction.C111_eulerHeun j _ T ht⟩

/-- C141: the precession comes back after one period, and after no shorter time unless the layer points along the axis. -/
theorem C141_period {v : CVec ℝ} (hv : v.x ≠ 0 ∨ v.y ≠ 0) {w : ℝ} (hw : w ≠ 0) (t s : ℝ) :
    precession v w (t + s) = precession v w t ↔ ∃ k : ℤ, s = k * (2 * Real.pi / w) := by
  have hn : 0 < v.x ^ 2 + v.y ^ 2 := by
    rcases hv with h | h
    · have := sq_pos_of_ne_zero h
      positivity
    · have := sq_pos_of_ne_zero h
      positivity
  have e : precession v w (t + s) = precession v w t ↔ Real.cos (w * s) = 1 := by
    have e1 : w * (t + s) = w * t + w * s := by ring
    constructor
    · intro h
      have hx := congrArg CVec.x h
      have hy := congrArg CVec.y h
      simp only [precession, e1, Real.cos_add, Real.sin_add] at hx hy
      have hc := Real.sin_sq_add_cos_sq (w * t)
      have : (Real.cos (w * s) - 1) * (v.x ^ 2 + v.y ^ 2) = 0 := by
        linear_combination (Real.cos (w * t) * v.x - Real.sin (w * t) * v.y) * hx + (Real.sin (w * t) * v.x + Real.cos (w * t) * v.y) * hy
          - (Real.cos (w * s) - 1) * (v.x ^ 2 + v.y ^ 2) * hc
      rcases mul_eq_zero.1 this with h1 | h1
      · linarith
      · linarith
    · intro h
      have hs : Real.sin (w * s) = 0 := by
        have := Real.sin_sq_add_cos_sq (w * s)
        rw [h] at this
        have h2 : Real.sin (w * s) ^ 2 = 0 := by linarith
        exact pow_eq_zero_iff two_ne_zero |>.1 h2
      apply CVec.ext <;> simp [precession, e1, Real.cos_add, Real.sin_add, h, hs]
  rw [e, Real.cos_eq_one_iff]
  constructor
  · rintro ⟨k, hk⟩
    exact ⟨k, by field_simp; linarith⟩
  · rintro ⟨k, rfl⟩
    exact ⟨k, by field_simp⟩

/-- helper: eventually not below any value where the push is positive up to it. -/
theorem eventually_above {z q : ℝ → ℝ} {b c : ℝ} (hc : 0 < c) (hz : ∀ t, 0 ≤ t → HasDerivAt z (c * (1 - z t ^ 2) * q (z t)) t)
    (h0 : -1 < z 0) (hb : -1 < b) (hb1 : b < 1) (hq : ∀ u, -1 < u → u ≤ b → 0 < q u) (hcont : ContinuousOn q (Icc (z 0) b)) :
    ∀ᶠ t in atTop, b ≤ z t := by
  rcases le_or_gt b (z 0) with h | h
  · exact (eventually_ge_atTop 0).mono fun t ht => trapped hc hz hb hb1 h (hq b hb le_rfl) ht
  · refine (eventually_ge_atTop (max 0 ((∫ y in z 0..b, 1 / ((1 - y ^ 2) * q y)) / c))).mono fun t ht => ?_
    have ht0 := (le_max_left _ _).trans ht
    have ht1 := (le_max_right _ _).trans ht
    rw [div_le_iff₀' hc] at ht1
    have := (passes hc hz h0 h hb1 (fun u hu => hq u (h0.trans_le hu.1) hu.2) hcont ht0).1
    exact not_lt.1 fun h' => absurd (this.1 h') (not_lt.2 ht1)

/-- C141: if the push points to `y` from both sides, every solution that does not start at a pole approaches `y`. -/
theorem C141_attracts (hr : Undriven j l) (ha : Axial l h K n N p) (hm : ∀ T, 0 ≤ T → Track j m T) (h0 : -1 < l.mag.z) (h1 : l.mag.z < 1)
    (hy : -1 < y) (hy1 : y < 1) (hlow : ∀ u, -1 < u → u < y → 0 < push l h K n N p u) (hhigh : ∀ u, y < u → u < 1 → push l h K n N p u < 0) :
    Tendsto (fun t => (m 0 t).z) atTop (𝓝 y) := by
  have e := axial_start hr.single hm
  rw [← e] at h0 h1
  have hz := fun t ht => (axial_track hr.single ha hm (t := t) ht).1
  have hc : 0 < 220880 / (1 + l.damping ^ 2) := by positivity
  rw [tendsto_order]
  constructor
  · intro a hay
    obtain ⟨b, hb, hby⟩ := exists_between (max_lt hay hy)
    have := eventually_above (z := fun t => (m 0 t).z) (q := push l h K n N p) (b := b) hc hz h0 ((le_max_right _ _).trans_lt hb) (hby.trans hy1)
      (fun u hu hub => hlow u hu (hub.trans_lt hby)) (push_continuousOn hr ha h0 (hby.trans hy1))
    exact this.mono fun t ht => ((le_max_left _ _).trans_lt hb).trans_le ht
  · intro a hay
    obtain ⟨b, hyb, hb⟩ := exists_between (lt_min hay hy1)
    have hb1 : b < 1 := hb.trans_le (min_le_right _ _)
    have hmaps : ∀ u ∈ Icc (-(m 0 0).z) (-b), -u ∈ Icc b (m 0 0).z := fun u hu => ⟨by linarith [hu.2], by linarith [hu.1]⟩
    have := eventually_above (z := fun t => -(m 0 t).z) (q := fun u => -push l h K n N p (-u)) (b := -b) hc
      (fun t ht => (hz t ht).neg.congr_deriv (by rw [neg_neg]; ring)) (by simpa using h1) (by linarith) (by linarith)
      (fun u hu hub => by linarith [hhigh (-u) (by linarith) (by linarith)])
      ((push_continuousOn hr ha (by linarith) h1).comp continuous_neg.continuousOn hmaps).neg
    exact this.mono fun t ht => lt_of_le_of_lt (by linarith) (hb.trans_le (min_le_left _ _))

/-- C141 for simulations: they settle at that component along the axis, with every solver. -/
theorem C141_goes (hr : Undriven j l) (ha : Axial l h K n N p) (h0 : -1 < l.mag.z) (h1 : l.mag.z < 1) (hy : -1 < y) (hy1 : y < 1)
    (hlow : ∀ u, -1 < u → u < y → 0 < push l h K n N p u) (hhigh : ∀ u, y < u → u < 1 → push l h K n N p u < 0) : GoesTo j y := by
  obtain ⟨m, hm⟩ := regular_track hr
  exact goes_of_tendsto hr.single hm (C141_attracts hr ha hm h0 h1 hy hy1 hlow hhigh)

theorem turning_continuous (ha : Axial l h K n N p) (hp : NoPole l ⟨0, 0, y⟩ ⟨0, 0, 0⟩ ⟨0, 0, 0⟩) :
    ContinuousAt (turning l h K n N p) y := by
  have hpol : polariser l ⟨0, 0, 0⟩ ⟨0, 0, 0⟩ = ⟨0, 0, p⟩ := by rw [polariser, if_pos ha.fixed, ha.reference]
  unfold turning
  refine ContinuousAt.mul continuousAt_const (ContinuousAt.add (by fun_prop) ?_)
  unfold spinTurn
  by_cases h1 : l.includeSTT = true
  · have hp := hp h1
    simp only [if_pos h1]
    rw [hpol, sttDenominator] at hp
    by_cases h2 : l.alternativeSTTSet = true
    · simp only [if_pos h2] at hp ⊢
      refine (ContinuousAt.mul continuousAt_const (ContinuousAt.div continuousAt_const (by fun_prop) ?_)).neg
      simpa [CVec.dot, mul_comm] using hp
    · simp only [if_neg h2] at hp ⊢
      refine (ContinuousAt.mul continuousAt_const (ContinuousAt.div continuousAt_const (by fun_prop) ?_)).neg
      simpa [CVec.dot, mul_comm] using hp
  · simp only [if_neg h1]
    exact continuousAt_const

/-- C141: the rate at which the layer turns about the axis tends to the frequency theory gives. -/
theorem C141_frequency (hr : Undriven j l) (ha : Axial l h K n N p) (hm : ∀ T, 0 ≤ T → Track j m T) (h0 : -1 < l.mag.z) (h1 : l.mag.z < 1)
    (hy : -1 < y) (hy1 : y < 1) (hlow : ∀ u, -1 < u → u < y → 0 < push l h K n N p u) (hhigh : ∀ u, y < u → u < 1 → push l h K n N p u < 0) :
    Tendsto (fun t => ((m 0 t).x * deriv (fun s => (m 0 s).y) t - (m 0 t).y * deriv (fun s => (m 0 s).x) t) / ((m 0 t).x ^ 2 + (m 0 t).y ^ 2))
      atTop (𝓝 (turning l h K n N p y)) := by
  have hlim := C141_attracts hr ha hm h0 h1 hy hy1 hlow hhigh
  have hp : NoPole l ⟨0, 0, y⟩ ⟨0, 0, 0⟩ ⟨0, 0, 0⟩ := by
    refine hr.poleless _ _ _ ?_ (by simp [CVec.length_eq, CVec.normSq]) (by simp [CVec.length_eq, CVec.normSq])
    rw [CVec.length_eq]
    refine Real.sqrt_le_one.2 ?_
    simp only [CVec.normSq]
    nlinarith
  refine ((turning_continuous ha hp).tendsto.comp hlim).congr' ?_
  filter_upwards [eventually_ge_atTop 0, hlim.eventually (lt_mem_nhds hy), hlim.eventually (gt_mem_nhds hy1)] with t ht a1 a2
  have hl : j.layers[0]? = some l := by rw [hr.single]; rfl
  have hu := track_unit (hm t ht) ⟨ht, le_rfl⟩ hl
  obtain ⟨lo, hi, hlo, hhi, hmo⟩ := (hm t ht).solves
  have hs := hmo 0 l hl t ⟨by linarith, hhi⟩
  have e1 : lower m 0 t = ⟨0, 0, 0⟩ := rfl
  have e2 : upper j.layers.length m 0 t = ⟨0, 0, 0⟩ := by simp [upper, hr.single]
  rw [e1, e2, C141_rates ha t hu] at hs
  rw [hs.1.deriv, hs.2.1.deriv]
  have hq : (m 0 t).x ^ 2 + (m 0 t).y ^ 2 + (m 0 t).z ^ 2 = 1 := by
    rw [CVec.length_eq, Real.sqrt_eq_one] at hu
    simpa [CVec.normSq, sq] using hu
  have hne : (m 0 t).x ^ 2 + (m 0 t).y ^ 2 ≠ 0 := by nlinarith
  simp only [Function.comp]
  rw [eq_div_iff hne]
  ring

/-! ### A case that meets the hypotheses -/

/-- A layer without anisotropy, held out of the plane by a spin-orbit torque. -/
noncomputable def torqueLayer : Layer ℝ :=
  { axisLayer 0 0 false with
    includeSOT := true, dynamicSOT := false, dampingLikeTorque := 1 / 80 / 1.257e-6, fieldLikeTorque := 0, currentDriver := .constantDriver 1 }

theorem torqueLayer_axial : Axial torqueLayer 0 0 (1 / 4) (1 / 2) 1 := by
  have ha := axisLayer_axial 0 0 false
  exact ⟨ha.1, ha.2, ha.3, ha.4, ha.5, ha.6, fun t => by simp [torqueLayer, ScalarDriver.value, ScalarDriver.constantDriver], ha.8, ha.9⟩

theorem torqueLayer_regular : Undriven { demoJ with layers := [torqueLayer] } torqueLayer := by
  have hr := axisLayer_regular 0 0 false
  refine ⟨rfl, hr.unit, hr.volume, ?_, ?_, ?_⟩
  · rw [quiet_iff]
    exact ⟨rfl, by simp [torqueLayer, axisLayer, Layer.demo]⟩
  · obtain ⟨a1, a2, a3, a4, a5, a6, a7, a8, b1, b2, b3, b4, b5, b6⟩ := hr.smooth
    exact ⟨a1, a2, a3, a4, .inl rfl, a6, a7, a8, b1, b2, b3, b4, b5, b6⟩
  · intro m b a _ _ _ hs
    simp [torqueLayer, axisLayer] at hs

theorem torqueLayer_push (z : ℝ) : push torqueLayer 0 0 (1 / 4) (1 / 2) 1 z = 1 / 40 / 1.257e-6 * (1 / 2 - z) := by
  have hk : stiffness torqueLayer.Ms 0 (1 / 4) (1 / 2) = 2 * 0 - 1 / 4 / 1.257e-6 := axisLayer_stiffness 0 0 false
  rw [push, hk]
  simp [spinPush, torqueLayer, axisLayer, ScalarDriver.value, ScalarDriver.constantDriver]
  ring

/-- It settles halfway out of the plane and goes on precessing, at a frequency that is not zero. -/
example : GoesTo { demoJ with layers := [torqueLayer] } (1 / 2) ∧ turning torqueLayer 0 0 (1 / 4) (1 / 2) 1 (1 / 2) < 0 := by
  constructor
  · refine C141_goes torqueLayer_regular torqueLayer_axial (by norm_num [torqueLayer, axisLayer]) (by norm_num [torqueLayer, axisLayer])
      (by norm_num) (by norm_num) (fun u _ hu => ?_) fun u hu _ => ?_
    · rw [torqueLayer_push]
      exact mul_pos (by norm_num) (by linarith)
    · rw [torqueLayer_push]
      exact mul_neg_of_pos_of_neg (by norm_num) (by linarith)
  · have hk : stiffness torqueLayer.Ms 0 (1 / 4) (1 / 2) = 2 * 0 - 1 / 4 / 1.257e-6 := axisLayer_stiffness 0 0 false
    rw [turning, hk]
    norm_num [spinTurn, torqueLayer, axisLayer, ScalarDriver.value, ScalarDriver.constantDriver]

/-- Started there, it precesses at once. -/
example (j : Junction ℝ) (hr : Undriven j { torqueLayer with mag := ⟨√3 / 2, 0, 1 / 2⟩ }) (T : ℝ) :
    Track j (fun _ => precession ⟨√3 / 2, 0, 1 / 2⟩ (turning torqueLayer 0 0 (1 / 4) (1 / 2) 1 (1 / 2))) T := by
  have ha := torqueLayer_axial
  refine C141_orbit (l := { torqueLayer with mag := ⟨√3 / 2, 0, 1 / 2⟩ }) hr ⟨ha.1, ha.2, ha.3, ha.4, ha.5, ha.6, ha.7, ha.8, ha.9⟩ ?_ T
  have := torqueLayer_push (1 / 2)
  rw [sub_self, mul_zero] at this
  exact this

end Switching
