import Verif.Spec.Larmor
import Verif.Props.Switching

/-!
C138: a layer without anisotropy follows the textbook spiral.
-/

set_option linter.unusedSectionVars false
set_option linter.unusedSimpArgs false

namespace Larmor
open Spec Layer

/-- helper: the spiral exists -/
theorem bottom_pos {c : ℝ} (h1 : -1 ≤ c) (h2 : c ≤ 1) (q : ℝ) : 0 < Real.cosh q + c * Real.sinh q := by
  have a := Real.cosh_add_sinh q
  have b := Real.cosh_sub_sinh q
  have e1 := Real.exp_pos q
  have e2 := Real.exp_pos (-q)
  have e : 2 * (Real.cosh q + c * Real.sinh q) = (1 + c) * Real.exp q + (1 - c) * Real.exp (-q) := by rw [← a, ← b]; ring
  rcases h1.eq_or_lt with rfl | h1
  · norm_num at e; linarith
  · have := mul_pos (show 0 < 1 + c by linarith) e1
    have := mul_nonneg (show 0 ≤ 1 - c by linarith) e2.le
    linarith

/-- helper -/
theorem unit_sq {e : CVec ℝ} (h : e.length = 1) : e.x ^ 2 + e.y ^ 2 + e.z ^ 2 = 1 := by
  rw [CVec.length_eq, Real.sqrt_eq_one] at h
  simpa [CVec.normSq, sq] using h

/-- helper -/
theorem dot_range {e m : CVec ℝ} (he : e.length = 1) (hm : m.length = 1) : -1 ≤ m.dot e ∧ m.dot e ≤ 1 :=
  abs_le.1 (Junction.dot_le_one hm.le he.le)

/-- helper: the part across the axis -/
noncomputable def across (e m : CVec ℝ) (w : ℝ) : CVec ℝ := smul (Real.cos w) (m - smul (m.dot e) e) + smul (Real.sin w) (e.cross m)

/-- helper -/
theorem spiral_eq (e m : CVec ℝ) (q w : ℝ) : spiral e m q w = smul (1 / (Real.cosh q + m.dot e * Real.sinh q))
    (smul (Real.sinh q + m.dot e * Real.cosh q) e + across e m w) := by
  unfold spiral across
  ext <;> simp only [smul, CVec.add_x, CVec.add_y, CVec.add_z, CVec.sub_x, CVec.sub_y, CVec.sub_z] <;> ring

/-- helper -/
theorem across_dot {e m : CVec ℝ} (he : e.length = 1) (w : ℝ) : (across e m w).dot e = 0 := by
  have ee := unit_sq he
  simp only [across, smul, CVec.dot, CVec.cross, CVec.add_x, CVec.add_y, CVec.add_z, CVec.sub_x, CVec.sub_y, CVec.sub_z]
  linear_combination (-(Real.cos w) * (m.x * e.x + m.y * e.y + m.z * e.z)) * ee

/-- helper -/
theorem across_sq {e m : CVec ℝ} (he : e.length = 1) (hm : m.length = 1) (w : ℝ) :
    (across e m w).x ^ 2 + (across e m w).y ^ 2 + (across e m w).z ^ 2 = 1 - (m.dot e) ^ 2 := by
  have ee := unit_sq he
  have mm := unit_sq hm
  have hw := Real.sin_sq_add_cos_sq w
  simp only [across, smul, CVec.dot, CVec.cross, CVec.add_x, CVec.add_y, CVec.add_z, CVec.sub_x, CVec.sub_y, CVec.sub_z]
  set c := m.x * e.x + m.y * e.y + m.z * e.z with hc
  linear_combination (1 - c ^ 2) * hw + (Real.cos w ^ 2 + Real.sin w ^ 2 * (e.x ^ 2 + e.y ^ 2 + e.z ^ 2)) * mm + (Real.cos w ^ 2 * c ^ 2 + Real.sin w ^ 2) * ee

/-- helper: the spiral stays on the sphere -/
theorem spiral_sq {e m : CVec ℝ} (he : e.length = 1) (hm : m.length = 1) (q w : ℝ) :
    (spiral e m q w).x ^ 2 + (spiral e m q w).y ^ 2 + (spiral e m q w).z ^ 2 = 1 := by
  obtain ⟨h1, h2⟩ := dot_range he hm
  have hD := (bottom_pos h1 h2 q).ne'
  have ee := unit_sq he
  have hc := Real.cosh_sq q
  have h3 := across_dot (m := m) he w
  have h4 := across_sq he hm w
  rw [spiral_eq]
  generalize across e m w = W at *
  generalize m.dot e = c at *
  simp only [smul, CVec.add_x, CVec.add_y, CVec.add_z, CVec.dot] at *
  field_simp
  linear_combination h4 + (Real.sinh q + c * Real.cosh q) ^ 2 * ee + 2 * (Real.sinh q + c * Real.cosh q) * h3 + (c ^ 2 - 1) * hc

/-- helper -/
theorem spiral_dot {e m : CVec ℝ} (he : e.length = 1) (q w : ℝ) :
    (spiral e m q w).dot e = (Real.sinh q + m.dot e * Real.cosh q) / (Real.cosh q + m.dot e * Real.sinh q) := by
  have ee := unit_sq he
  have h3 := across_dot (m := m) he w
  rw [spiral_eq]
  generalize across e m w = W at *
  generalize m.dot e = c at *
  simp only [smul, CVec.add_x, CVec.add_y, CVec.add_z, CVec.dot] at *
  rw [div_eq_mul_one_div]
  linear_combination (1 / (Real.cosh q + c * Real.sinh q)) * ((Real.sinh q + c * Real.cosh q) * ee + h3)

/-- helper: the slope of the spiral -/
theorem spiral_slope {e m : CVec ℝ} (he : e.length = 1) (hm : m.length = 1) {q w : ℝ → ℝ} {t q' w' : ℝ} (hq : HasDerivAt q q' t)
    (hw : HasDerivAt w w' t) : Slope (fun s => spiral e m (q s) (w s))
      (smul w' (e.cross (spiral e m (q t) (w t))) - smul q' ((spiral e m (q t) (w t)).cross ((spiral e m (q t) (w t)).cross e))) t := by
  obtain ⟨h1, h2⟩ := dot_range he hm
  have hD := (bottom_pos h1 h2 (q t)).ne'
  have ee := unit_sq he
  have hX := spiral_sq he hm (q t) (w t)
  have hXe := spiral_dot (m := m) he (q t) (w t)
  have dS := hq.sinh
  have dC := hq.cosh
  have ds := hw.sin
  have dc := hw.cos
  have dN := dS.add (dC.const_mul (m.dot e))
  have dD := dC.add (dS.const_mul (m.dot e))
  set X := spiral e m (q t) (w t) with hXd
  have triple : X.cross (X.cross e) = smul (X.dot e) X - e := by
    ext
    · simp only [CVec.cross, CVec.dot, smul, CVec.sub_x]
      linear_combination (-e.x) * hX
    · simp only [CVec.cross, CVec.dot, smul, CVec.sub_y]
      linear_combination (-e.y) * hX
    · simp only [CVec.cross, CVec.dot, smul, CVec.sub_z]
      linear_combination (-e.z) * hX
  rw [triple, hXe]
  have part : ∀ {a W Wd x : ℝ} {f : ℝ → ℝ}, HasDerivAt f (w' * Wd) t → f t = W → x = (1 / (Real.cosh (q t) + m.dot e * Real.sinh (q t))) *
      ((Real.sinh (q t) + m.dot e * Real.cosh (q t)) * a + W) →
      HasDerivAt (fun s => (1 / (Real.cosh (q s) + m.dot e * Real.sinh (q s))) * ((Real.sinh (q s) + m.dot e * Real.cosh (q s)) * a + f s))
        (w' * ((1 / (Real.cosh (q t) + m.dot e * Real.sinh (q t))) * Wd) - q' * ((Real.sinh (q t) + m.dot e * Real.cosh (q t)) /
          (Real.cosh (q t) + m.dot e * Real.sinh (q t)) * x - a)) t := by
    intro a W Wd x f hf hW hx
    have d1 := (((dN.mul_const a).add hf).div dD hD)
    refine HasDerivAt.congr_deriv (f' := _) (d1.congr_of_eventuallyEq (Filter.Eventually.of_forall fun s => ?_)) ?_
    · simp only [Pi.add_apply, Pi.div_apply]
      ring
    · rw [hx, ← hW]
      simp only [Pi.add_apply]
      field_simp
      ring
  have dW : ∀ a b : ℝ, HasDerivAt (fun s => Real.cos (w s) * a + Real.sin (w s) * b) (w' * (-Real.sin (w t) * a + Real.cos (w t) * b)) t := by
    intro a b
    refine ((dc.mul_const a).add (ds.mul_const b)).congr_deriv ?_
    ring
  have turn : e.cross X = smul (1 / (Real.cosh (q t) + m.dot e * Real.sinh (q t))) (smul (-Real.sin (w t)) (m - smul (m.dot e) e) + smul (Real.cos (w t)) (e.cross m)) := by
    rw [hXd, spiral_eq]
    unfold across
    ext
    · simp only [smul, CVec.dot, CVec.cross, CVec.add_x, CVec.add_y, CVec.add_z, CVec.sub_x, CVec.sub_y, CVec.sub_z]
      linear_combination (-(1 / (Real.cosh (q t) + (m.x * e.x + m.y * e.y + m.z * e.z) * Real.sinh (q t))) * Real.sin (w t) * m.x) * ee
    · simp only [smul, CVec.dot, CVec.cross, CVec.add_x, CVec.add_y, CVec.add_z, CVec.sub_x, CVec.sub_y, CVec.sub_z]
      linear_combination (-(1 / (Real.cosh (q t) + (m.x * e.x + m.y * e.y + m.z * e.z) * Real.sinh (q t))) * Real.sin (w t) * m.y) * ee
    · simp only [smul, CVec.dot, CVec.cross, CVec.add_x, CVec.add_y, CVec.add_z, CVec.sub_x, CVec.sub_y, CVec.sub_z]
      linear_combination (-(1 / (Real.cosh (q t) + (m.x * e.x + m.y * e.y + m.z * e.z) * Real.sinh (q t))) * Real.sin (w t) * m.z) * ee
  have shape : (fun s => spiral e m (q s) (w s)) = fun s => smul (1 / (Real.cosh (q s) + m.dot e * Real.sinh (q s)))
    (smul (Real.sinh (q s) + m.dot e * Real.cosh (q s)) e + across e m (w s)) := funext fun s => spiral_eq ..
  rw [shape, turn]
  have hXeq := spiral_eq e m (q t) (w t)
  rw [← hXd] at hXeq
  exact ⟨part (dW _ _) rfl (congrArg CVec.x hXeq), part (dW _ _) rfl (congrArg CVec.y hXeq), part (dW _ _) rfl (congrArg CVec.z hXeq)⟩

/-- helper -/
theorem axis_field {l : Layer ℝ} {e : CVec ℝ} {h : ℝ → ℝ} (ha : OneAxis l e h) (t : ℝ) (m : CVec ℝ) :
    field l t m ⟨0, 0, 0⟩ ⟨0, 0, 0⟩ = smul (h t) e := by
  have hf := ha.external t
  rw [← hf]
  apply CVec.ext
  all_goals
    simp only [field, heffSpec, ha.demag, ha.anisotropy, exchangeField, idmiField, anisField, tensorField, smul, CVec.add_x, CVec.add_y, CVec.add_z]
    norm_num

/-- helper -/
theorem axis_motion {l : Layer ℝ} {e : CVec ℝ} {h : ℝ → ℝ} (ha : OneAxis l e h) (t : ℝ) (m : CVec ℝ) :
    motion l t m ⟨0, 0, 0⟩ ⟨0, 0, 0⟩ = smul (220880 / (1 + l.damping ^ 2) * turnRate l h t) (e.cross m) -
      smul (220880 / (1 + l.damping ^ 2) * tiltRate l h t) (m.cross (m.cross e)) := by
  have hpol : polariser l ⟨0, 0, 0⟩ ⟨0, 0, 0⟩ = e := by rw [polariser, if_pos ha.fixed, ha.reference]
  unfold motion turnRate tiltRate
  rw [hpol, axis_field ha]
  unfold spinTorque
  by_cases h1 : l.includeSTT = true
  · have hη : sttAmplitude l t * sttEfficiency l m e = transfer l t := by
      have := ha.efficiency h1
      unfold transfer sttEfficiency sttDenominator
      by_cases h2 : l.alternativeSTTSet = true
      · rw [if_pos h2] at this
        rw [if_pos h2, if_pos h2, if_pos h2, this]
        simp
      · rw [if_neg h2] at this
        rw [if_neg h2, if_neg h2, if_neg h2, this]
        norm_num
    simp only [if_pos h1, hη]
    ext <;> simp [smul, CVec.cross] <;> ring
  · simp only [if_neg h1]
    split
    · ext <;> simp [smul, CVec.cross] <;> ring
    · ext <;> simp [smul, CVec.cross] <;> ring

/-- helper -/
theorem axis_strength {l : Layer ℝ} {e : CVec ℝ} {h : ℝ → ℝ} (ha : OneAxis l e h) (hs : SmoothDrivers l) : Continuous h := by
  have ee := unit_sq ha.unit
  have e1 : h = fun t => (l.externalFieldDriver.value t + l.HoeDriver.value t + l.HdmiDriver.value t + l.HreservedDriver.value t).dot e := by
    funext t
    rw [ha.external t]
    simp only [smul, CVec.dot]
    linear_combination (-(h t)) * ee
  rw [e1, continuous_iff_continuousAt]
  intro t
  have hl := Junction.C111_drivers l hs t
  have c : ∀ {d : ℝ → CVec ℝ}, SmoothVec d t → ContinuousAt (fun s => (d s).x) t ∧ ContinuousAt (fun s => (d s).y) t ∧ ContinuousAt (fun s => (d s).z) t :=
    fun h => ⟨h.1.continuousAt, h.2.1.continuousAt, h.2.2.continuousAt⟩
  obtain ⟨a1, a2, a3⟩ := c hl.external
  obtain ⟨b1, b2, b3⟩ := c hl.oersted
  obtain ⟨c1, c2, c3⟩ := c hl.dmi
  obtain ⟨d1, d2, d3⟩ := c hl.reserved
  simp only [CVec.dot, CVec.add_x, CVec.add_y, CVec.add_z]
  exact (((((a1.add b1).add c1).add d1).mul continuousAt_const).add ((((a2.add b2).add c2).add d2).mul continuousAt_const)).add
    ((((a3.add b3).add c3).add d3).mul continuousAt_const)

/-- helper -/
theorem rates_continuous {l : Layer ℝ} {e : CVec ℝ} {h : ℝ → ℝ} (ha : OneAxis l e h) (hs : SmoothDrivers l) :
    Continuous (turnRate l h) ∧ Continuous (tiltRate l h) := by
  have hc := axis_strength ha hs
  have h1 : Continuous l.currentDriver.value := continuous_iff_continuousAt.2 fun t => (Junction.C111_drivers l hs t).current.continuousAt
  have h2 : Continuous l.fieldLikeTorqueDriver.value := continuous_iff_continuousAt.2 fun t => (Junction.C111_drivers l hs t).fieldLike.continuousAt
  have h3 : Continuous l.dampingLikeTorqueDriver.value := continuous_iff_continuousAt.2 fun t => (Junction.C111_drivers l hs t).dampingLike.continuousAt
  have h4 : Continuous fun t => transfer l t := by
    unfold transfer sttAmplitude
    exact ((continuous_const.mul h1).div_const _).mul continuous_const
  have h5 : Continuous fun t => (sotFields l t).1 := by
    unfold sotFields
    split
    · exact h2
    · exact continuous_const.mul h1
  have h6 : Continuous fun t => (sotFields l t).2 := by
    unfold sotFields
    split
    · exact h3
    · exact continuous_const.mul h1
  unfold turnRate tiltRate
  constructor
  · refine hc.add ?_
    split
    · exact (h4.mul continuous_const).neg
    · split
      · exact h5.sub (continuous_const.mul h6)
      · exact continuous_const
  · refine (continuous_const.mul hc).add ?_
    split
    · exact h4.mul continuous_const
    · split
      · exact h6.add (continuous_const.mul h5)
      · exact continuous_const

/-- helper -/
theorem phase_deriv {f : ℝ → ℝ} (hf : Continuous f) (c t : ℝ) : HasDerivAt (fun t => ∫ s in (0 : ℝ)..t, c * f s) (c * f t) t :=
  intervalIntegral.integral_hasDerivAt_right ((continuous_const.mul hf).intervalIntegrable _ _)
    ((continuous_const.mul hf).stronglyMeasurableAtFilter _ _) (continuous_const.mul hf).continuousAt

/-- helper -/
theorem spiral_start {e m : CVec ℝ} : spiral e m 0 0 = m := by
  unfold spiral
  ext <;> simp [smul]

variable {j : Junction ℝ} {l : Layer ℝ} {e : CVec ℝ} {h : ℝ → ℝ}

/-- C138. The textbook curve solves the equation of motion of the layer, at all times, from the magnetisation of the layer on. -/
theorem C138_solves (hr : Undriven j l) (ha : OneAxis l e h) (T : ℝ) : Track j (fun _ => textbook l e h) T := by
  obtain ⟨ct, cq⟩ := rates_continuous ha hr.smooth
  have hall : ∀ {P : Layer ℝ → Prop}, P l → ∀ l' ∈ j.layers, P l' := by
    intro P hP l' hl'
    rw [hr.single, List.mem_singleton] at hl'
    rwa [hl']
  have hget : ∀ {i : Nat} {l' : Layer ℝ}, j.layers[i]? = some l' → i = 0 ∧ l' = l := by
    intro i l' hi
    rw [hr.single] at hi
    match i, hi with
    | 0, hi => exact ⟨rfl, by simpa using hi.symm⟩
    | i + 1, hi => simp at hi
  have hup : ∀ t, upper j.layers.length (fun _ => textbook l e h) 0 t = ⟨0, 0, 0⟩ := fun t => by simp [upper, hr.single]
  have hlow : ∀ t, lower (fun _ => textbook l e h) 0 t = ⟨0, 0, 0⟩ := fun t => rfl
  have hlen : ∀ t, (textbook l e h t).length = 1 := fun t => by
    rw [CVec.length_eq, Real.sqrt_eq_one]
    have := spiral_sq ha.unit hr.unit (∫ s in (0 : ℝ)..t, 220880 / (1 + l.damping ^ 2) * tiltRate l h s)
      (∫ s in (0 : ℝ)..t, 220880 / (1 + l.damping ^ 2) * turnRate l h s)
    have : (textbook l e h t).x ^ 2 + (textbook l e h t).y ^ 2 + (textbook l e h t).z ^ 2 = 1 := this
    simpa only [CVec.normSq, sq] using this
  refine ⟨⟨-1, T + 1, by norm_num, by linarith, fun i l' hi t _ => ?_⟩, fun i l' hi => ?_, hall hr.unit, hall hr.volume, hall hr.quiet,
    fun l' hl' t _ => hall (P := fun l => Smooth l t) (Junction.C111_drivers l hr.smooth t) l' hl', fun i l' hi t _ => ?_⟩
  · obtain ⟨rfl, rfl⟩ := hget hi
    rw [hup, hlow, axis_motion ha]
    exact spiral_slope ha.unit hr.unit (phase_deriv cq _ t) (phase_deriv ct _ t)
  · obtain ⟨rfl, rfl⟩ := hget hi
    unfold textbook
    rw [intervalIntegral.integral_same, intervalIntegral.integral_same, spiral_start]
  · obtain ⟨rfl, rfl⟩ := hget hi
    rw [hup, hlow]
    exact hr.poleless _ _ _ (hlen t).le (by simp [CVec.length_eq, CVec.normSq]) (by simp [CVec.length_eq, CVec.normSq])

/-- C138. Simulations converge to the textbook curve, each with the order of its solver. -/
theorem C138_runs (hr : Undriven j l) (ha : OneAxis l e h) (T : ℝ) :
    Converges j .RK4 (fun _ => textbook l e h) T 4 ∧ Converges j .DORMAND_PRICE (fun _ => textbook l e h) T 4 ∧
    Converges j .HEUN (fun _ => textbook l e h) T 2 ∧ Converges j .EULER_HEUN (fun _ => textbook l e h) T 1 := by
  have ht := C138_solves hr ha T
  have h1 : j.layers.length = 1 := by rw [hr.single]; rfl
  exact ⟨Junction.C111_rk4_partial j _ T ht h1 .RK4 (.inl rfl), Junction.C111_rk4_partial j _ T ht h1 .DORMAND_PRICE (.inr rfl),
    Junction.C111_heun j _ T ht, Junction.C111_eulerHeun j _ T ht⟩

/-- C138. Nothing else solves the equation of motion. -/
theorem C138_only (hr : Undriven j l) (ha : OneAxis l e h) (T : ℝ) (m : Nat → ℝ → CVec ℝ) (hm : Track j m T) (t : ℝ) (ht : t ∈ Set.Icc 0 T) :
    m 0 t = textbook l e h t :=
  Junction.C111_unique j m _ T hm (C138_solves hr ha T) 0 (by rw [hr.single]; exact Nat.one_pos) t ht

/-- C138. The component along the axis changes as `tanh`: by the addition theorem, from `tanh u` to `tanh (u + q)`. -/
theorem C138_tanh (he : e.length = 1) {m : CVec ℝ} {u : ℝ} (hu : m.dot e = Real.tanh u) (q w : ℝ) :
    (spiral e m q w).dot e = Real.tanh (u + q) := by
  rw [spiral_dot he, hu, Real.tanh_eq_sinh_div_cosh, Real.tanh_eq_sinh_div_cosh, Real.sinh_add, Real.cosh_add]
  have := (Real.cosh_pos u).ne'
  have e1 : Real.cosh q + Real.sinh u / Real.cosh u * Real.sinh q = (Real.cosh u * Real.cosh q + Real.sinh u * Real.sinh q) / Real.cosh u := by
    field_simp
  have e2 : Real.sinh q + Real.sinh u / Real.cosh u * Real.cosh q = (Real.sinh u * Real.cosh q + Real.cosh u * Real.sinh q) / Real.cosh u := by
    field_simp
    ring
  rw [e1, e2, div_div_div_cancel_right₀ this]

/-- helper -/
theorem constant_phase (c x t : ℝ) : (∫ _ in (0 : ℝ)..t, c * x) = c * x * t := by
  rw [intervalIntegral.integral_const, smul_eq_mul, sub_zero, mul_comm]

/-- C138, a constant field and constant torques: the component along the axis is `tanh (u + γ / (1 + α²) q t)` with the rate `q`; the layer crosses the
plane across the axis at the time `-u (1 + α²) / (γ q)` and at no other. -/
theorem C138_switching_time (ha : OneAxis l e h) {q u : ℝ} (hq : ∀ t, tiltRate l h t = q) (h0 : q ≠ 0)
    (hu : l.mag.dot e = Real.tanh u) (t : ℝ) :
    (textbook l e h t).dot e = Real.tanh (u + 220880 / (1 + l.damping ^ 2) * q * t) ∧
      ((textbook l e h t).dot e = 0 ↔ t = -u * (1 + l.damping ^ 2) / (220880 * q)) := by
  have h1 : (textbook l e h t).dot e = Real.tanh (u + 220880 / (1 + l.damping ^ 2) * q * t) := by
    unfold textbook
    rw [C138_tanh ha.unit hu]
    simp only [hq, constant_phase]
  refine ⟨h1, ?_⟩
  have hpos : (1 + l.damping ^ 2) ≠ 0 := by positivity
  rw [h1, Real.tanh_eq_sinh_div_cosh, div_eq_zero_iff, or_iff_left (Real.cosh_pos _).ne', Real.sinh_eq_zero]
  constructor
  · intro hz
    field_simp at hz ⊢
    linarith
  · rintro rfl
    field_simp
    ring

/-- C138, Larmor precession: without damping and torques the component along the axis never changes, and in a constant field the
layer is back after every period `2π / (γ h)`. -/
theorem C138_larmor (ha : OneAxis l e h) (hd : l.damping = 0) (h1 : l.includeSTT = false) (h2 : l.includeSOT = false) :
    (∀ t, (textbook l e h t).dot e = l.mag.dot e) ∧
    ∀ H : ℝ, (∀ t, h t = H) → H ≠ 0 → ∀ t, textbook l e h (t + 2 * Real.pi / (220880 * H)) = textbook l e h t := by
  have hq : ∀ t, tiltRate l h t = 0 := fun t => by simp [tiltRate, hd, h1, h2]
  have hw : ∀ t, turnRate l h t = h t := fun t => by simp [turnRate, h1, h2]
  refine ⟨fun t => ?_, fun H hH h0 t => ?_⟩
  · unfold textbook
    rw [spiral_dot ha.unit]
    simp [hq]
  · unfold textbook
    simp only [hq, hw, hH, hd]
    have e1 : ∀ t : ℝ, (∫ _ in (0 : ℝ)..t, (220880 / (1 + 0 ^ 2) * H : ℝ)) = 220880 * H * t := fun t => by
      rw [constant_phase]; norm_num
    have e2 : 220880 * H * (t + 2 * Real.pi / (220880 * H)) = 220880 * H * t + 2 * Real.pi := by field_simp
    have e0 : ∀ t : ℝ, (∫ _ in (0 : ℝ)..t, (220880 / (1 + 0 ^ 2) * 0 : ℝ)) = 0 := fun t => by simp
    rw [e1, e1, e0, e0, e2]
    unfold spiral
    rw [Real.cos_add_two_pi, Real.sin_add_two_pi]

/-! ### A case -/

/-- a layer in a field of 1 A/m along `x`, damped, with a spin-orbit torque, magnetised across the field -/
noncomputable def spinning : Layer ℝ :=
  { Layer.demo with
      damping := 1 / 10, anisotropyDriver := .null, externalFieldDriver := .ofVec ⟨1, 0, 0⟩, includeSTT := false, includeSOT := true,
      demagTensor := ⟨⟨0, 0, 0⟩, ⟨0, 0, 0⟩, ⟨0, 0, 0⟩⟩, referenceType := .FIXED, referenceLayer := ⟨1, 0, 0⟩, mag := ⟨0, 1, 0⟩,
      dampingLikeTorque := 2, fieldLikeTorque := 3, currentDriver := .constantDriver 5, dynamicSOT := false }

/-- Such a layer meets the hypotheses. -/
example : Undriven { Junction.demoJ with layers := [spinning] } spinning ∧ OneAxis spinning ⟨1, 0, 0⟩ (fun _ => 1) ∧
    (∀ t, tiltRate spinning (fun _ => 1) t = 1 / 10 + (10 + 15 / 10)) ∧ spinning.mag.dot ⟨1, 0, 0⟩ = Real.tanh 0 := by
  refine ⟨⟨rfl, ?_, ?_, ?_, ?_, ?_⟩, ⟨?_, fun t => ?_, fun t => ?_, rfl, rfl, rfl, fun hx => ?_⟩, fun t => ?_, ?_⟩
  · simp [spinning, CVec.length_eq, CVec.normSq]
  · simp [spinning, Layer.demo]
  · simp [spinning, Layer.demo, Noisy]
  · constructor <;> simp [spinning, Layer.demo, SmoothKind, SmoothAxes, ScalarDriver.null, ScalarDriver.constantDriver, AxialDriver.null, AxialDriver.ofVec]
  · intro _ _ _ _ _ _ hs
    simp [spinning] at hs
  · simp [CVec.length_eq, CVec.normSq]
  · ext <;> simp [spinning, Layer.demo, smul, AxialDriver.value, AxialDriver.null, AxialDriver.ofVec, ScalarDriver.value, ScalarDriver.null, ScalarDriver.constantDriver]
  · simp [spinning, ScalarDriver.value, ScalarDriver.null, ScalarDriver.constantDriver]
  · simp [spinning] at hx
  · simp [tiltRate, sotFields, spinning, ScalarDriver.value, ScalarDriver.constantDriver]
    norm_num
  · simp [spinning, CVec.dot]

end Larmor
