import Verif.Model.Drivers
import Verif.Lemmas.Vec
import Verif.Spec.Waves
import Mathlib.MeasureTheory.Integral.Gamma
import Mathlib.MeasureTheory.Integral.IntegralEqImproper
import Mathlib.Analysis.SpecialFunctions.Gaussian.GaussianIntegral

/-! # C03 – C09: drivers -/
set_option linter.unusedSectionVars false

namespace ScalarDriver

/-! ## C03 step -/
section
variable {T : Type} [Scalar T]

/-- **C03.** Factory: rejected exactly when `timeStop <= timeStart` (any scalar type). -/
theorem C03_factory (c a t0 t1 : T) :
    (stepDriver c a t0 t1 = .error .stepTimes ↔ Scalar.leb t1 t0 = true) ∧
    ((∃ d, stepDriver c a t0 t1 = .ok d) ↔ Scalar.leb t1 t0 = false) := by
  unfold stepDriver mk'
  cases Scalar.leb t1 t0 <;> simp

/-- **C03.** The value of an accepted step driver at every time (any scalar type): the amplitude is added
exactly when both comparisons with the window ends hold. -/
theorem C03_value (c a t0 t1 t : T) (d : ScalarDriver T) (h : stepDriver c a t0 t1 = .ok d) :
    d.value t = c + (if Scalar.leb t0 t = true ∧ Scalar.leb t t1 = true then a else 0) := by
  unfold stepDriver mk' at h
  split at h
  · cases h
  · simp at h; subst h
    simp [value, stepUpdate]
end

/-- **C03.** Over the reals: constant plus the amplitude on the closed window. -/
theorem C03_window (c a t0 t1 t : ℝ) (d : ScalarDriver ℝ) (h : stepDriver c a t0 t1 = .ok d) :
    t0 < t1 ∧ d.value t = c + Spec.window a t0 t1 t := by
  constructor
  · have := ((C03_factory c a t0 t1).2).1 ⟨d, h⟩
    simpa using this
  · rw [C03_value c a t0 t1 t d h]
    simp [Spec.window, Set.indicator, Set.mem_Icc]

/-- The hypothesis of the value theorems is satisfiable. -/
example : ∃ d, stepDriver (1 : ℝ) 2 0 3 = .ok d := by
  rw [(C03_factory _ _ _ _).2]; simp

/-! ## C04 pulse -/

theorem truncR_nonneg {x : ℝ} (h : 0 ≤ x) : Scalar.truncR x = ⌊x⌋ := by simp [Scalar.truncR, h]

/-- **C04.** For every non-negative time at which the code's `int` cast is defined (fewer than 2^31 elapsed
periods) the pulse is high exactly while the elapsed fraction of the current period is at most the duty
cycle. The duty cycle may be any number. -/
theorem C04_value (c a p q t : ℝ) (d : ScalarDriver ℝ) (hd : pulseDriver c a p q = .ok d)
    (hp : 0 < p) (ht : 0 ≤ t) (hr : t / p < 2147483648) :
    d.value t = c + Spec.dutyPulse a p q t := by
  unfold pulseDriver mk' at hd
  split at hd
  · cases hd
  · simp at hd; subst hd
    have hdiv : 0 ≤ t / p := div_nonneg ht hp.le
    have hint : Scalar.toInt (t / p) = some ⌊t / p⌋ := by
      show (if _ then _ else _) = _
      rw [if_pos ⟨by linarith, hr⟩, truncR_nonneg hdiv]
    have hle : (⌊t / p⌋ : ℝ) * p ≤ t := by
      have := Int.floor_le (t / p)
      calc (⌊t / p⌋ : ℝ) * p ≤ (t / p) * p := by nlinarith
        _ = t := by field_simp
    have key : (t ≤ (⌊t / p⌋ : ℝ) * p + q * p) ↔ Int.fract (t / p) ≤ q := by
      unfold Int.fract
      have : t = (t / p) * p := by field_simp
      constructor
      · intro h
        have h' : (t / p - ⌊t / p⌋) * p ≤ q * p := by linarith
        exact le_of_mul_le_mul_right h' hp
      · intro h
        have := mul_le_mul_of_nonneg_right h hp.le
        linarith
    simp only [value, pulseTrain, pulseTrain?, hint, Spec.dutyPulse]
    simp [hle, key]
    split <;> simp_all

/-- **C04.** It repeats with the period. -/
theorem C04_periodic (c a p q t : ℝ) (d : ScalarDriver ℝ) (hd : pulseDriver c a p q = .ok d)
    (hp : 0 < p) (ht : 0 ≤ t) (hr : t / p + 1 < 2147483648) :
    d.value (t + p) = d.value t := by
  have hdiv : (t + p) / p = t / p + 1 := by field_simp
  rw [C04_value c a p q t d hd hp ht (by linarith),
    C04_value c a p q (t + p) d hd hp (by linarith) (by rw [hdiv]; exact hr)]
  simp only [Spec.dutyPulse, hdiv, Int.fract_add_one]

/-- **C04.** The factory rejects exactly the sentinel value -1 for period or duty cycle. -/
theorem C04_factory (c a p q : ℝ) :
    (∃ d, pulseDriver c a p q = .ok d) ↔ p ≠ -1 ∧ q ≠ -1 := by
  unfold pulseDriver mk'
  simp only [Scalar.eqb_real]
  by_cases h1 : p = -1 <;> by_cases h2 : q = -1 <;> simp [h1, h2]

/-- Negative times (never used by a run, whose clock starts at 0): the cast truncates towards zero, so the
pulse is off except at multiples of the period. -/
theorem C04_negative_time (c a p q t : ℝ) (d : ScalarDriver ℝ) (hd : pulseDriver c a p q = .ok d)
    (hp : 0 < p) (ht : t < 0) (hn : ∀ n : ℤ, t ≠ n * p) : d.value t = c := by
  unfold pulseDriver mk' at hd
  split at hd
  · cases hd
  · simp at hd; subst hd
    simp only [value, pulseTrain, pulseTrain?]
    have hdiv : ¬ (0 ≤ t / p) := not_le.2 (div_neg_of_neg_of_pos ht hp)
    have hint : Scalar.toInt (t / p) = (if -2147483649 < t / p ∧ t / p < 2147483648 then
        some (Scalar.truncR (t / p)) else none) := rfl
    rw [hint]
    split_ifs with h
    · have hgt : ¬ ((⌈t / p⌉ : ℝ) * p ≤ t) := by
        intro hle
        have h2 := Int.le_ceil (t / p)
        have h3 : t ≤ (⌈t / p⌉ : ℝ) * p := by
          calc t = (t / p) * p := by field_simp
            _ ≤ _ := by nlinarith
        exact hn _ (le_antisymm h3 hle)
      simp [Scalar.truncR, hdiv, hgt]
    · simp

example : ∃ d, pulseDriver (1 : ℝ) 2 (1 / 2) (1 / 4) = .ok d := by rw [C04_factory]; norm_num
example : (0 : ℝ) < 1 / 2 ∧ (0 : ℝ) ≤ 7 ∧ (7 : ℝ) / (1 / 2) + 1 < 2147483648 := by norm_num

/-! ## C05 trapezoid -/

/-- **C05.** The trapezoid is the clamped minimum of its two ramps, at every time. -/
theorem C05_value (c a t0 e s t : ℝ) (d : ScalarDriver ℝ) (hd : trapezoidDriver c a t0 e s = .ok d)
    (he : 0 < e) (hs : 0 ≤ s) : d.value t = c + Spec.trapezoid a t0 e s t := by
  unfold trapezoidDriver mk' at hd
  simp at hd; subst hd
  simp only [value, trapezoidalUpdate, Spec.trapezoid, Spec.clamp01]
  simp
  split_ifs with h1 h2 h3 h4
  · have : (t - t0) / e ≤ 0 := div_nonpos_of_nonpos_of_nonneg (by linarith) he.le
    rw [max_eq_left ((min_le_right _ _).trans ((min_le_left _ _).trans this))]; simp
  · have ha : 0 ≤ (t - t0) / e := div_nonneg (by linarith) he.le
    have hb : (t - t0) / e ≤ 1 := by rw [div_le_one he]; linarith
    have hc : 1 ≤ (t0 + 2 * e + s - t) / e := by rw [le_div_iff₀ he]; linarith
    rw [min_eq_left (hb.trans hc), min_eq_right hb, max_eq_right ha]
    field_simp
  · have hb : 1 ≤ (t - t0) / e := by rw [le_div_iff₀ he]; linarith
    have hc : 1 ≤ (t0 + 2 * e + s - t) / e := by rw [le_div_iff₀ he]; linarith
    rw [min_eq_left (le_min hb hc)]; simp
  · have hb : 1 ≤ (t - t0) / e := by rw [le_div_iff₀ he]; linarith
    have hc : (t0 + 2 * e + s - t) / e ≤ 1 := by rw [div_le_one he]; linarith
    have hd' : 0 ≤ (t0 + 2 * e + s - t) / e := div_nonneg (by linarith) he.le
    rw [min_eq_right (hc.trans hb), min_eq_right hc, max_eq_right hd']
    field_simp; ring
  · have hc : (t0 + 2 * e + s - t) / e ≤ 0 := div_nonpos_of_nonpos_of_nonneg (by linarith) he.le
    rw [max_eq_left ((min_le_right _ _).trans ((min_le_right _ _).trans hc))]; simp

/-- **C05.** Continuity in time. -/
theorem C05_continuous (c a t0 e s : ℝ) (d : ScalarDriver ℝ) (hd : trapezoidDriver c a t0 e s = .ok d)
    (he : 0 < e) (hs : 0 ≤ s) : Continuous d.value := by
  have : d.value = fun t => c + Spec.trapezoid a t0 e s t :=
    funext fun t => C05_value c a t0 e s t d hd he hs
  rw [this]
  unfold Spec.trapezoid Spec.clamp01
  fun_prop

/-- **C05.** The signal stays between the constant and constant plus amplitude. -/
theorem C05_bounds (c a t0 e s t : ℝ) (d : ScalarDriver ℝ) (hd : trapezoidDriver c a t0 e s = .ok d)
    (he : 0 < e) (hs : 0 ≤ s) : min c (c + a) ≤ d.value t ∧ d.value t ≤ max c (c + a) := by
  rw [C05_value c a t0 e s t d hd he hs, Spec.trapezoid]
  have h0 : 0 ≤ Spec.clamp01 (min ((t - t0) / e) ((t0 + 2 * e + s - t) / e)) := le_max_left _ _
  have h1 : Spec.clamp01 (min ((t - t0) / e) ((t0 + 2 * e + s - t) / e)) ≤ 1 :=
    max_le zero_le_one (min_le_left _ _)
  set u := Spec.clamp01 (min ((t - t0) / e) ((t0 + 2 * e + s - t) / e))
  rcases le_total 0 a with h | h
  · rw [min_eq_left (by linarith), max_eq_right (by linarith)]
    constructor <;> nlinarith
  · rw [min_eq_right (by linarith), max_eq_left (by linarith)]
    constructor <;> nlinarith

/-- **C05.** Outside the pulse the signal is the constant, on the plateau it is constant + amplitude. -/
theorem C05_outside_plateau (c a t0 e s t : ℝ) (d : ScalarDriver ℝ)
    (hd : trapezoidDriver c a t0 e s = .ok d) (he : 0 < e) (hs : 0 ≤ s) :
    (t ≤ t0 ∨ t0 + 2 * e + s ≤ t → d.value t = c) ∧
    (t0 + e ≤ t → t ≤ t0 + e + s → d.value t = c + a) := by
  rw [C05_value c a t0 e s t d hd he hs, Spec.trapezoid, Spec.clamp01]
  constructor
  · rintro (h | h)
    · have : (t - t0) / e ≤ 0 := div_nonpos_of_nonpos_of_nonneg (by linarith) he.le
      rw [max_eq_left]; · simp
      exact (min_le_right _ _).trans ((min_le_left _ _).trans this)
    · have : (t0 + 2 * e + s - t) / e ≤ 0 := div_nonpos_of_nonpos_of_nonneg (by linarith) he.le
      rw [max_eq_left]; · simp
      exact (min_le_right _ _).trans ((min_le_right _ _).trans this)
  · intro h1 h2
    have hb : 1 ≤ (t - t0) / e := by rw [le_div_iff₀ he]; linarith
    have hc : 1 ≤ (t0 + 2 * e + s - t) / e := by rw [le_div_iff₀ he]; linarith
    rw [min_eq_left (le_min hb hc)]; simp

example : (∃ d, trapezoidDriver (1 : ℝ) 2 0 1 3 = .ok d) ∧ (0 : ℝ) < 1 ∧ (0 : ℝ) ≤ 3 := by
  refine ⟨⟨_, rfl⟩, by norm_num, by norm_num⟩

/-! ## C06 sine kinds -/

/-- **C06.** The sine driver is the documented sine and stays within |amplitude| of its constant. -/
theorem C06_sine (c a f ph t : ℝ) (d : ScalarDriver ℝ) (hd : sineDriver c a f ph = .ok d) :
    d.value t = c + a * Real.sin (2 * Real.pi * f * t + ph) ∧ |d.value t - c| ≤ |a| := by
  unfold sineDriver mk' at hd
  split at hd
  · cases hd
  split at hd
  · cases hd
  cases hd
  have : 2 * Real.pi * t * f + ph = 2 * Real.pi * f * t + ph := by ring
  simp only [value]
  simp only [Scalar.sin_real, Scalar.pi_real, Scalar.ofNat_real, Nat.cast_ofNat, this]
  refine ⟨trivial, ?_⟩
  simp only [add_sub_cancel_left, abs_mul]
  exact mul_le_of_le_one_right (abs_nonneg _) (Real.abs_sin_le_one _)

/-- **C06.** The positive sine is the rectified wave: between the constant and constant + |amplitude|. -/
theorem C06_posine (c a f ph t : ℝ) (d : ScalarDriver ℝ) (hd : posSineDriver c a f ph = .ok d) :
    d.value t = c + |a * Real.sin (2 * Real.pi * f * t + ph)| ∧
      c ≤ d.value t ∧ d.value t ≤ c + |a| := by
  unfold posSineDriver mk' at hd
  simp at hd; subst hd
  have : 2 * Real.pi * t * f + ph = 2 * Real.pi * f * t + ph := by ring
  simp only [value]
  simp only [Scalar.sin_real, Scalar.pi_real, Scalar.ofNat_real, Nat.cast_ofNat, this, Scalar.abs_real]
  refine ⟨trivial, by linarith [abs_nonneg (a * Real.sin (2 * Real.pi * f * t + ph))], ?_⟩
  rw [abs_mul]
  linarith [mul_le_of_le_one_right (abs_nonneg a) (Real.abs_sin_le_one (2 * Real.pi * f * t + ph))]

/-- **C06.** The half sine passes exactly the non-positive half wave. -/
theorem C06_halfsine (c a f ph t : ℝ) (d : ScalarDriver ℝ) (hd : halfSineDriver c a f ph = .ok d) :
    d.value t = c + min 0 (a * Real.sin (2 * Real.pi * f * t + ph)) ∧
      c - |a| ≤ d.value t ∧ d.value t ≤ c := by
  unfold halfSineDriver mk' at hd
  simp at hd; subst hd
  have : 2 * Real.pi * t * f + ph = 2 * Real.pi * f * t + ph := by ring
  have hv : (⟨.halfsine, c, a, f, ph, -1, -1, -1, -1, -1, -1⟩ : ScalarDriver ℝ).value t
      = c + min 0 (a * Real.sin (2 * Real.pi * f * t + ph)) := by
    simp only [value]
    simp only [Scalar.sin_real, Scalar.pi_real, Scalar.ofNat_real, Nat.cast_ofNat, this, Scalar.leb_real,
      Nat.cast_zero, decide_eq_true_eq]
    split_ifs with h
    · rw [min_eq_right h]
    · rw [min_eq_left (not_le.1 h).le, add_zero]
  rw [show (⟨.halfsine, c, a, f, ph, -1, -1, -1, -1, -1, -1⟩ : ScalarDriver ℝ).value t = _ from hv]
  refine ⟨rfl, ?_, by linarith [min_le_left 0 (a * Real.sin (2 * Real.pi * f * t + ph))]⟩
  have h1 := mul_le_of_le_one_right (abs_nonneg a) (Real.abs_sin_le_one (2 * Real.pi * f * t + ph))
  rw [← abs_mul] at h1
  have h2 := neg_abs_le (a * Real.sin (2 * Real.pi * f * t + ph))
  have : -|a| ≤ min 0 (a * Real.sin (2 * Real.pi * f * t + ph)) :=
    le_min (by linarith [abs_nonneg a]) (by linarith)
  linarith

/-- **C06.** All three repeat with period 1/frequency. -/
theorem C06_periodic (d : ScalarDriver ℝ) (t : ℝ)
    (hk : d.update = .sine ∨ d.update = .posine ∨ d.update = .halfsine) (hf : d.frequency ≠ 0) :
    d.value (t + 1 / d.frequency) = d.value t := by
  have key : Real.sin (2 * Real.pi * (t + 1 / d.frequency) * d.frequency + d.phase)
      = Real.sin (2 * Real.pi * t * d.frequency + d.phase) := by
    have : 2 * Real.pi * (t + 1 / d.frequency) * d.frequency + d.phase
        = 2 * Real.pi * t * d.frequency + d.phase + 2 * Real.pi := by field_simp; ring
    rw [this, Real.sin_add_two_pi]
  rcases hk with h | h | h <;>
    simp only [value, h, Scalar.sin_real, Scalar.pi_real, Scalar.ofNat_real, Nat.cast_ofNat, key]

/-- **C06.** The sine factory rejects exactly the sentinel frequency -1; the other two accept everything. -/
theorem C06_factories (c a f ph : ℝ) :
    ((∃ d, sineDriver c a f ph = .ok d) ↔ f ≠ -1) ∧
    (∃ d, posSineDriver c a f ph = .ok d ∧ d.update = .posine ∧ d.frequency = f) ∧
    (∃ d, halfSineDriver c a f ph = .ok d ∧ d.update = .halfsine ∧ d.frequency = f) := by
  refine ⟨?_, ⟨_, rfl, rfl, rfl⟩, ⟨_, rfl, rfl, rfl⟩⟩
  unfold sineDriver mk'
  simp only [Scalar.eqb_real]
  by_cases h : f = -1 <;> simp [h]

example : ∃ d, sineDriver (1 : ℝ) 2 3 0 = .ok d := (C06_factories _ _ _ _).1.2 (by norm_num)
example : ∃ d, sineDriver (1 : ℝ) 2 3 0 = .ok d ∧ d.update = .sine ∧ d.frequency ≠ 0 := by
  refine ⟨⟨.sine, 1, 2, 3, 0, -1, -1, -1, -1, -1, -1⟩, ?_, rfl, by norm_num⟩
  unfold sineDriver mk'
  simp
  norm_num

end ScalarDriver
