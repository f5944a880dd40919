import Verif.Props.Drivers

/-! # C07 – C09: Gaussian drivers, driver arithmetic, axial drivers -/
set_option linter.unusedSectionVars false
open Filter Topology

namespace ScalarDriver

/-! ## C07 Gaussian kinds -/

/-- **C07.** The Gaussian impulse has the documented shape at every time. -/
theorem C07_impulse_value (c a t0 sg t : ℝ) (d : ScalarDriver ℝ)
    (hd : gaussianImpulseDriver c a t0 sg = .ok d) :
    d.value t = c + a * Real.exp (-((t - t0) ^ 2) / (2 * sg ^ 2)) := by
  unfold gaussianImpulseDriver mk' at hd
  simp at hd; subst hd
  simp [value]

/-- **C07.** Peak, symmetry, and bounds of the impulse. -/
theorem C07_impulse_shape (c a t0 sg : ℝ) (d : ScalarDriver ℝ)
    (hd : gaussianImpulseDriver c a t0 sg = .ok d) :
    d.value t0 = c + a ∧ (∀ s, d.value (t0 + s) = d.value (t0 - s)) ∧
      (∀ t, |d.value t - c| ≤ |a|) := by
  refine ⟨?_, ?_, ?_⟩
  · rw [C07_impulse_value c a t0 sg _ d hd]; simp
  · intro s
    rw [C07_impulse_value c a t0 sg _ d hd, C07_impulse_value c a t0 sg _ d hd]
    congr 3; ring
  · intro t
    rw [C07_impulse_value c a t0 sg _ d hd, add_sub_cancel_left, abs_mul]
    apply mul_le_of_le_one_right (abs_nonneg _)
    rw [abs_of_pos (Real.exp_pos _), Real.exp_le_one_iff]
    apply div_nonpos_of_nonpos_of_nonneg <;> [nlinarith [sq_nonneg (t - t0)]; positivity]

theorem gauss_tendsto (a t0 sg : ℝ) (hs : sg ≠ 0) (l : Filter ℝ)
    (hl : Tendsto (fun t : ℝ => (t - t0) ^ 2) l atTop) :
    Tendsto (fun t => a * Real.exp (-((t - t0) ^ 2) / (2 * sg ^ 2))) l (𝓝 0) := by
  have h2 : 0 < 2 * sg ^ 2 := by positivity
  have h1 : Tendsto (fun t : ℝ => -((t - t0) ^ 2) / (2 * sg ^ 2)) l atBot := by
    have h3 := (tendsto_neg_atBot_iff (f := fun t : ℝ => (t - t0) ^ 2 / (2 * sg ^ 2))).2
      (hl.atTop_div_const h2)
    refine h3.congr (fun t => ?_)
    ring
  have := (Real.tendsto_exp_atBot.comp h1).const_mul a
  simpa using this

theorem sq_tendsto_top (t0 : ℝ) : Tendsto (fun t : ℝ => (t - t0) ^ 2) atTop atTop :=
  (tendsto_pow_atTop (two_ne_zero)).comp (tendsto_atTop_add_const_right _ (-t0) tendsto_id)

theorem sq_tendsto_bot (t0 : ℝ) : Tendsto (fun t : ℝ => (t - t0) ^ 2) atBot atTop := by
  have h : Tendsto (fun t : ℝ => -(t - t0)) atBot atTop :=
    tendsto_neg_atTop_iff.2 (tendsto_atBot_add_const_right _ (-t0) tendsto_id)
  have := (tendsto_pow_atTop (two_ne_zero)).comp h
  refine this.congr (fun t => ?_)
  simp only [Function.comp]; ring

/-- **C07.** The impulse decays to the constant on both sides. -/
theorem C07_impulse_decay (c a t0 sg : ℝ) (hs : sg ≠ 0) (d : ScalarDriver ℝ)
    (hd : gaussianImpulseDriver c a t0 sg = .ok d) :
    Tendsto d.value atTop (𝓝 c) ∧ Tendsto d.value atBot (𝓝 c) := by
  have hv : d.value = fun t => c + a * Real.exp (-((t - t0) ^ 2) / (2 * sg ^ 2)) :=
    funext fun t => C07_impulse_value c a t0 sg t d hd
  rw [hv]
  constructor
  · simpa using (gauss_tendsto a t0 sg hs _ (sq_tendsto_top t0)).const_add c
  · simpa using (gauss_tendsto a t0 sg hs _ (sq_tendsto_bot t0)).const_add c

example : (∃ d, gaussianImpulseDriver (1 : ℝ) 2 3 4 = .ok d) ∧ (4 : ℝ) ≠ 0 := ⟨⟨_, rfl⟩, by norm_num⟩

/-- **C07, refuted half.** The driver built by the Gaussian *step* factory is the impulse: it falls back to
the constant, so a plateau at `constant + amplitude` (or at any other level above the constant) is never
kept. -/
theorem C07_gaussianStep_refuted (c a t0 sg : ℝ) (hs : sg ≠ 0) (d : ScalarDriver ℝ)
    (hd : gaussianStepDriver c a t0 sg = .ok d) :
    gaussianImpulseDriver c a t0 sg = .ok d ∧
    Tendsto d.value atTop (𝓝 c) ∧ (a ≠ 0 → ¬ Tendsto d.value atTop (𝓝 (c + a))) := by
  have h : gaussianImpulseDriver c a t0 sg = .ok d := hd
  refine ⟨h, (C07_impulse_decay c a t0 sg hs d h).1, ?_⟩
  intro ha h'
  have := tendsto_nhds_unique h' (C07_impulse_decay c a t0 sg hs d h).1
  exact ha (by linarith)

example : ∃ d, gaussianStepDriver (1 : ℝ) 2 3 4 = .ok d := ⟨_, rfl⟩

theorem erf_tendsto_top : Tendsto (fun x : ℝ => Scalar.erf x) atTop (𝓝 1) := by
  have h := MeasureTheory.intervalIntegral_tendsto_integral_Ioi (μ := MeasureTheory.volume)
    (f := fun t : ℝ => Real.exp (-t ^ 2)) 0 (by
      have := (integrable_exp_neg_mul_sq (b := 1) one_pos)
      simpa using this.integrableOn) tendsto_id
  have hi : ∫ t in Set.Ioi (0 : ℝ), Real.exp (-t ^ 2) = Real.sqrt Real.pi / 2 := by
    have := integral_gaussian_Ioi 1
    simpa using this
  rw [hi] at h
  have h2 := h.const_mul (2 / Real.sqrt Real.pi)
  have : 2 / Real.sqrt Real.pi * (Real.sqrt Real.pi / 2) = 1 := by
    have : Real.sqrt Real.pi ≠ 0 := (Real.sqrt_pos.2 Real.pi_pos).ne'
    field_simp
  rw [this] at h2
  exact h2

theorem erf_neg (x : ℝ) : Scalar.erf (-x) = -Scalar.erf x := by
  show 2 / Real.sqrt Real.pi * _ = -(2 / Real.sqrt Real.pi * _)
  have h := intervalIntegral.integral_comp_neg (a := 0) (b := x) (fun t : ℝ => Real.exp (-t ^ 2))
  simp only [neg_sq, neg_zero] at h
  rw [h, intervalIntegral.integral_symm]; ring

theorem erf_tendsto_bot : Tendsto (fun x : ℝ => Scalar.erf x) atBot (𝓝 (-1)) := by
  have := (erf_tendsto_top.comp tendsto_neg_atBot_atTop).neg
  refine this.congr (fun x => ?_)
  simp [erf_neg]

/-- **C07, what holds of the step (`_partial`).** The *evaluation branch* for the kind `gaussstep` does follow
the documented erf step: from the constant up to constant + amplitude. Missing for the full claim: no
factory produces this kind (see `C07_gaussianStep_refuted`); it can only be built through the raw C++
constructor. -/
theorem C07_gaussStep_branch_partial (d : ScalarDriver ℝ) (hk : d.update = .gaussstep)
    (hs : 0 < d.edgeTime) :
    Tendsto d.value atTop (𝓝 (d.constantValue + d.amplitude)) ∧
    Tendsto d.value atBot (𝓝 d.constantValue) ∧
    d.value d.timeStart = d.constantValue + d.amplitude / 2 := by
  have hv : d.value = fun t => d.constantValue + 0.5 * d.amplitude *
      (1 + Scalar.erf ((t - d.timeStart) / (Real.sqrt 2 * d.edgeTime))) := by
    funext t; simp [value, hk]
  have hpos : 0 < Real.sqrt 2 * d.edgeTime := by positivity
  rw [hv]
  refine ⟨?_, ?_, ?_⟩
  · have h1 : Tendsto (fun t : ℝ => (t - d.timeStart) / (Real.sqrt 2 * d.edgeTime)) atTop atTop :=
      (tendsto_atTop_add_const_right _ (-d.timeStart) tendsto_id).atTop_div_const hpos
    have h2 := ((erf_tendsto_top.comp h1).const_add 1).const_mul (0.5 * d.amplitude)
    have h3 := h2.const_add d.constantValue
    rw [show d.constantValue + 0.5 * d.amplitude * (1 + 1) = d.constantValue + d.amplitude by
      norm_num; ring] at h3
    exact h3
  · have h1 : Tendsto (fun t : ℝ => (t - d.timeStart) / (Real.sqrt 2 * d.edgeTime)) atBot atBot :=
      (tendsto_atBot_add_const_right _ (-d.timeStart) tendsto_id).atBot_div_const hpos
    have h2 := ((erf_tendsto_bot.comp h1).const_add 1).const_mul (0.5 * d.amplitude)
    have h3 := h2.const_add d.constantValue
    rw [show d.constantValue + 0.5 * d.amplitude * (1 + -1) = d.constantValue by
      norm_num] at h3
    exact h3
  · have : Scalar.erf (0 : ℝ) = 0 := by
      show 2 / Real.sqrt Real.pi * _ = (0 : ℝ); simp
    simp [this]; ring

example : ∃ d : ScalarDriver ℝ, d.update = .gaussstep ∧ 0 < d.edgeTime :=
  ⟨⟨.gaussstep, 0, 1, 0, 0, 0, 0, 0, 0, 1, 0⟩, rfl, one_pos⟩

/-! ## C08 arithmetic on drivers -/

section
variable {T : Type} [Scalar T]

/-- The constructor accepted the driver's parameters. -/
def Accepted (d : ScalarDriver T) : Prop :=
  mk' d.update d.constantValue d.amplitude d.frequency d.phase d.period d.cycle d.timeStart d.timeStop
    d.edgeTime d.steadyTime = .ok d

/-- **C08.** On every driver a constructor accepted, `*` and `+` do not raise and agree with the in-place
forms (any scalar type). -/
theorem C08_forms_agree (d : ScalarDriver T) (h : d.Accepted) (k : T) :
    d.mul k = .ok (d.mulAssign k) ∧ d.add k = .ok (d.addAssign k) := by
  unfold Accepted mk' at h
  unfold mul add mk' mulAssign addAssign
  split at h
  · cases h
  split at h
  · cases h
  rename_i h1 h2
  rw [if_neg h1, if_neg h2, if_neg h1, if_neg h2]
  exact ⟨rfl, rfl⟩

/-- **C08.** Only offset and amplitude change; every wave-shape parameter is untouched, and addition adds
the value to offset and amplitude (any scalar type). -/
theorem C08_frame (d : ScalarDriver T) (k : T) :
    (∀ d' ∈ [d.mulAssign k, d.addAssign k],
      d'.update = d.update ∧ d'.frequency = d.frequency ∧ d'.phase = d.phase ∧ d'.period = d.period ∧
      d'.cycle = d.cycle ∧ d'.timeStart = d.timeStart ∧ d'.timeStop = d.timeStop ∧
      d'.edgeTime = d.edgeTime ∧ d'.steadyTime = d.steadyTime) ∧
    (d.addAssign k).constantValue = d.constantValue + k ∧ (d.addAssign k).amplitude = d.amplitude + k := by
  simp [mulAssign, addAssign]

/-- every factory product is accepted -/
theorem accepted_of_mk' (u : UpdateType) (c a f ph p q t0 t1 e s : T) (d : ScalarDriver T)
    (h : mk' u c a f ph p q t0 t1 e s = .ok d) : d.Accepted := by
  unfold Accepted
  have h' := h
  unfold mk' at h
  split at h
  · cases h
  split at h
  · cases h
  cases h
  exact h'
end

theorem pulseTrain_scale (a k t p q : ℝ) :
    pulseTrain (a * k) t p q = pulseTrain a t p q * k := by
  unfold pulseTrain pulseTrain?
  cases Scalar.toInt (t / p) with
  | none => simp
  | some n => dsimp only; split <;> simp

/-- **C08 (`_partial`).** Multiplying a driver by a factor multiplies its signal, for every kind and all
factors if the kind is not rectified, for non-negative factors if it is. Missing for the full claim: negative
factors on `posine` and `halfsine`, where it is false (`C08_negative_refuted`). -/
theorem C08_scale_partial (d : ScalarDriver ℝ) (k t : ℝ)
    (h : (d.update = .posine ∨ d.update = .halfsine) → 0 ≤ k) :
    (d.mulAssign k).value t = k * d.value t := by
  unfold value mulAssign
  cases hu : d.update with
  | constant => simp; ring
  | pulse => simp only [pulseTrain_scale]; ring
  | sine => simp only; ring
  | posine =>
      have hk := h (Or.inl hu)
      simp only [Scalar.abs_real]
      rw [mul_right_comm, abs_mul _ k, abs_of_nonneg hk]; ring
  | halfsine =>
      have hk := h (Or.inr hu)
      simp only [Scalar.leb_real, Scalar.ofNat_real, Nat.cast_zero, decide_eq_true_eq]
      set s := Scalar.sin (2 * Scalar.pi * t * d.frequency + d.phase) with hs
      have e : d.amplitude * k * Scalar.sin (((2:ℕ):ℝ) * Scalar.pi * t * d.frequency + d.phase) = k * (d.amplitude * Scalar.sin (((2:ℕ):ℝ) * Scalar.pi * t * d.frequency + d.phase)) := by ring
      rw [e]
      by_cases h1 : d.amplitude * Scalar.sin (((2:ℕ):ℝ) * Scalar.pi * t * d.frequency + d.phase) ≤ 0
      · rw [if_pos h1, if_pos (mul_nonpos_of_nonneg_of_nonpos hk h1)]; ring
      · rw [if_neg h1]
        rcases hk.eq_or_lt with h0 | h0
        · rw [← h0]; simp
        · rw [if_neg (by push Not at h1 ⊢; exact mul_pos h0 h1)]; ring
  | step =>
      simp only [stepUpdate]; split_ifs <;> (try simp only [Scalar.ofNat_real, Nat.cast_zero]) <;> ring
  | trapezoid =>
      simp only [trapezoidalUpdate]
      split_ifs <;> (try simp only [Scalar.ofNat_real, Nat.cast_zero]) <;> ring
  | gaussimpulse => simp only; ring
  | gaussstep => simp only; ring

example : ((⟨.posine, 1, 2, 3, 0, -1, -1, -1, -1, -1, -1⟩ : ScalarDriver ℝ).update = .posine ∨
    (⟨.posine, 1, 2, 3, 0, -1, -1, -1, -1, -1, -1⟩ : ScalarDriver ℝ).update = .halfsine) → (0 : ℝ) ≤ 5 := by
  intro _; norm_num

/-- **C08, refuted for negative factors on rectified kinds.** Both rectified kinds, built by their factories,
give a signal different from the scaled one. -/
theorem C08_negative_refuted :
    (∃ (d : ScalarDriver ℝ) (t : ℝ), posSineDriver 0 1 1 0 = .ok d ∧
      (d.mulAssign (-1)).value t ≠ (-1) * d.value t) ∧
    (∃ (d : ScalarDriver ℝ) (t : ℝ), halfSineDriver 0 1 1 0 = .ok d ∧
      (d.mulAssign (-1)).value t ≠ (-1) * d.value t) := by
  have hpi : (2 * Real.pi * (1 / 4) * 1 + 0) = Real.pi / 2 := by ring
  refine ⟨⟨_, 1 / 4, rfl, ?_⟩, ⟨_, 1 / 4, rfl, ?_⟩⟩
  · simp only [value, mulAssign, Scalar.abs_real, Scalar.sin_real, Scalar.pi_real, Scalar.ofNat_real,
      Nat.cast_ofNat, hpi, Real.sin_pi_div_two]
    norm_num
  · simp only [value, mulAssign, Scalar.leb_real, Scalar.sin_real, Scalar.pi_real, Scalar.ofNat_real,
      Nat.cast_ofNat, hpi, Real.sin_pi_div_two]
    norm_num

/-- **C08.** Shifting adds `v` to the signal of a constant driver; for the other kinds the signal changes by
`v` plus the change of amplitude. Here for sine. -/
theorem C08_shift_sine (d : ScalarDriver ℝ) (hk : d.update = .sine) (v t : ℝ) :
    (d.addAssign v).value t =
      d.value t + v + v * Real.sin (2 * Real.pi * t * d.frequency + d.phase) := by
  simp [value, addAssign, hk]; ring

example : ∃ d : ScalarDriver ℝ, d.update = .sine ∧ d.Accepted :=
  ⟨⟨.sine, 0, 1, 2, 0, -1, -1, -1, -1, -1, -1⟩, rfl, by unfold Accepted mk'; simp; norm_num⟩

end ScalarDriver

/-! ## C09 axial drivers -/
namespace AxialDriver
variable {T : Type} [Scalar T]

/-- **C09.** The vector value is component-wise (any scalar type). -/
theorem C09_componentwise (d : AxialDriver T) (t : T) :
    (d.value t).x = d.dx.value t ∧ (d.value t).y = d.dy.value t ∧ (d.value t).z = d.dz.value t :=
  ⟨rfl, rfl, rfl⟩

/-- **C09.** A uniaxial driver carries the signal on its axis and is zero on the others, at every time. -/
theorem C09_uniaxial (d : ScalarDriver T) (t : T) :
    (uniAxial d .xaxis).value t = ⟨d.value t, 0, 0⟩ ∧
    (uniAxial d .yaxis).value t = ⟨0, d.value t, 0⟩ ∧
    (uniAxial d .zaxis).value t = ⟨0, 0, d.value t⟩ ∧
    (uniAxial d .all).value t = ⟨d.value t, d.value t, d.value t⟩ ∧
    (uniAxial d .none).value t = ⟨0, 0, 0⟩ := ⟨rfl, rfl, rfl, rfl, rfl⟩

/-- **C09.** A vector-valued constant driver has that value at every time. -/
theorem C09_constant (v : CVec T) (t : T) : (ofVec v).value t = v := rfl

/-- **C09.** The list constructor accepts exactly three drivers and keeps their order. -/
theorem C09_ofList (l : List (ScalarDriver T)) :
    ((∃ d, ofList l = .ok d) ↔ l.length = 3) ∧ (∀ d, ofList l = .ok d → l = [d.dx, d.dy, d.dz]) := by
  constructor
  · constructor
    · rintro ⟨d, h⟩; unfold ofList at h; split at h
      · rfl
      · cases h
    · intro h
      match l, h with
      | [a, b, c], _ => exact ⟨_, rfl⟩
  · intro d h; unfold ofList at h; split at h
    · cases h; rfl
    · cases h

/-- **C09.** A binary mask succeeds; afterwards, at every time, masked axes are zero and the others are as
before (any scalar type). -/
theorem C09_mask_binary (d : AxialDriver T) (m0 m1 m2 : Nat)
    (h0 : m0 ≤ 1) (h1 : m1 ≤ 1) (h2 : m2 ≤ 1) :
    (d.applyMask m0 m1 m2).1 = .ok () ∧
    ∀ t, (d.applyMask m0 m1 m2).2.value t =
      ⟨if m0 = 0 then 0 else (d.value t).x, if m1 = 0 then 0 else (d.value t).y,
       if m2 = 0 then 0 else (d.value t).z⟩ := by
  have a0 : m0 = 0 ∨ m0 = 1 := by omega
  have a1 : m1 = 0 ∨ m1 = 1 := by omega
  have a2 : m2 = 0 ∨ m2 = 1 := by omega
  rcases a0 with rfl | rfl <;> rcases a1 with rfl | rfl <;> rcases a2 with rfl | rfl <;>
    exact ⟨rfl, fun _ => rfl⟩

/-- **C09.** The mask call raises exactly when some entry is neither 0 nor 1. -/
theorem C09_mask_error_iff (d : AxialDriver T) (m0 m1 m2 : Nat) :
    (d.applyMask m0 m1 m2).1 = .error .badMask ↔ (2 ≤ m0 ∨ 2 ≤ m1 ∨ 2 ≤ m2) := by
  unfold applyMask maskOne
  rcases m0 with _ | _ | m0 <;> rcases m1 with _ | _ | m1 <;> rcases m2 with _ | _ | m2 <;> simp

/-- **C09.** A raising mask call has already nulled the masked axes before the offending entry: here
the x axis is lost although the call failed. -/
theorem C09_mask_half_applied (d : AxialDriver T) (m : Nat) (hm : 2 ≤ m) (m2 : Nat) :
    (d.applyMask 0 m m2).1 = .error .badMask ∧
    (d.applyMask 0 m m2).2 = { d with dx := .null } := by
  rcases m with _ | _ | m
  · omega
  · omega
  · constructor <;> simp [applyMask, maskOne]

example : (0 : Nat) ≤ 1 ∧ (1 : Nat) ≤ 1 ∧ 2 ≤ (7 : Nat) := by decide

end AxialDriver
