import Verif.Props.WallEnergy

set_option linter.unusedSectionVars false

/-!
C139: beyond the Walker field a domain wall turns with the textbook period and drifts with the textbook mean velocity.
-/

namespace Spec

/-- The rate at which a wall beyond the Walker field completes half turns, times `π`: the square root of the difference of the squares of
the driving field and the Walker field, with the gyromagnetic factor (Schryer and Walker, 1974). -/
noncomputable def walkerRate (α H hk : ℝ) : ℝ := 221100 / (1 + α ^ 2) * √(H ^ 2 - (α * hk / 2) ^ 2)

/-- The time of half a turn. -/
noncomputable def walkerPeriod (α H hk : ℝ) : ℝ := Real.pi / walkerRate α H hk

/-- The mean velocity of a wall of width `Δ` beyond the Walker field: the mobility `γ Δ / α` times the field, less what the turning takes. -/
noncomputable def walkerDrift (α H hk Δ : ℝ) : ℝ :=
  221100 * Δ / α * (H - SignType.sign H * (√(H ^ 2 - (α * hk / 2) ^ 2) / (1 + α ^ 2)))

end Spec

namespace Domain
open Filter Topology Spec

/-- The mean anomaly of the turning: it grows evenly. -/
noncomputable def anomaly (β ψ : ℝ) : ℝ := ψ + 2 * Real.arctan (β * Real.cos ψ / (1 + β * Real.sin ψ))

theorem anomaly_turn (β ψ : ℝ) : anomaly β (ψ + 2 * Real.pi) = anomaly β ψ + 2 * Real.pi := by
  simp only [anomaly, Real.cos_add_two_pi, Real.sin_add_two_pi]
  ring

theorem anomaly_den {β : ℝ} (hβ : |β| < 1) (ψ : ℝ) : 0 < 1 + β * Real.sin ψ := by
  have h : |β * Real.sin ψ| < 1 := by
    rw [abs_mul]
    exact (mul_le_of_le_one_right (abs_nonneg _) (Real.abs_sin_le_one _)).trans_lt hβ
  linarith [(abs_lt.1 h).1]

theorem anomaly_slope {β : ℝ} (hβ : |β| < 1) (ψ : ℝ) :
    HasDerivAt (anomaly β) ((1 - β ^ 2) / (1 + 2 * β * Real.sin ψ + β ^ 2)) ψ := by
  have hd := anomaly_den hβ ψ
  have h1 : HasDerivAt (fun ψ => β * Real.cos ψ / (1 + β * Real.sin ψ))
      ((β * -Real.sin ψ * (1 + β * Real.sin ψ) - β * Real.cos ψ * (β * Real.cos ψ)) / (1 + β * Real.sin ψ) ^ 2) ψ :=
    ((Real.hasDerivAt_cos ψ).const_mul β).div (((Real.hasDerivAt_sin ψ).const_mul β).const_add 1) hd.ne'
  have hc := Real.sin_sq_add_cos_sq ψ
  have hq : (1 + β * Real.sin ψ) ^ 2 + (β * Real.cos ψ) ^ 2 = 1 + 2 * β * Real.sin ψ + β ^ 2 := by
    linear_combination β ^ 2 * hc
  have hp : 0 < 1 + 2 * β * Real.sin ψ + β ^ 2 := by
    rw [← hq]
    positivity
  refine ((hasDerivAt_id ψ).add (h1.arctan.const_mul 2)).congr_deriv ?_
  have e : 1 + (β * Real.cos ψ / (1 + β * Real.sin ψ)) ^ 2 = (1 + 2 * β * Real.sin ψ + β ^ 2) / (1 + β * Real.sin ψ) ^ 2 := by
    rw [← hq]
    field_simp
  rw [e]
  have hp' := hp.ne'
  have hd' := hd.ne'
  field_simp
  linear_combination (-2 * β ^ 2) * hc

/-- The eccentricity that belongs to the drive `B` and the amplitude `A`. -/
theorem anomaly_rate {A B : ℝ} (h : |A| < B) :
    |A / (B + √(B ^ 2 - A ^ 2))| < 1 ∧ 0 < √(B ^ 2 - A ^ 2) ∧ (∀ ψ, 0 < B + A * Real.sin ψ) ∧
    ∀ ψ, HasDerivAt (anomaly (A / (B + √(B ^ 2 - A ^ 2)))) (√(B ^ 2 - A ^ 2) / (B + A * Real.sin ψ)) ψ := by
  have hB : 0 < B := (abs_nonneg A).trans_lt h
  have hs : 0 < B ^ 2 - A ^ 2 := by
    have := sq_lt_sq' (by linarith [abs_nonneg A]) h
    rw [sq_abs] at this
    linarith
  have hr := Real.sqrt_pos.2 hs
  have hr2 := Real.sq_sqrt hs.le
  set r := √(B ^ 2 - A ^ 2)
  have hβ : |A / (B + r)| < 1 := by
    rw [abs_div, abs_of_pos (by positivity : 0 < B + r), div_lt_one (by positivity)]
    linarith
  have hpos : ∀ ψ, 0 < B + A * Real.sin ψ := by
    intro ψ
    have h1 : |A * Real.sin ψ| ≤ |A| := by
      rw [abs_mul]
      exact mul_le_of_le_one_right (abs_nonneg _) (Real.abs_sin_le_one _)
    linarith [(abs_le.1 h1).1]
  refine ⟨hβ, hr, hpos, fun ψ => (anomaly_slope hβ ψ).congr_deriv ?_⟩
  have hd : B + r ≠ 0 := by positivity
  have e1 : 1 - (A / (B + r)) ^ 2 = 2 * r / (B + r) := by
    field_simp
    linear_combination -hr2
  have e2 : 1 + 2 * (A / (B + r)) * Real.sin ψ + (A / (B + r)) ^ 2 = 2 * (B + A * Real.sin ψ) / (B + r) := by
    field_simp
    linear_combination hr2
  rw [e1, e2]
  have := (hpos ψ).ne'
  field_simp

theorem anomaly_mono {A B : ℝ} (h : |A| < B) : StrictMono (anomaly (A / (B + √(B ^ 2 - A ^ 2)))) := by
  obtain ⟨-, hr, hp, hd⟩ := anomaly_rate h
  refine strictMono_of_deriv_pos fun ψ => ?_
  rw [(hd ψ).deriv]
  exact div_pos hr (hp ψ)

theorem anomaly_near (β ψ : ℝ) : ψ - Real.pi ≤ anomaly β ψ ∧ anomaly β ψ ≤ ψ + Real.pi := by
  have h1 := Real.neg_pi_div_two_lt_arctan (β * Real.cos ψ / (1 + β * Real.sin ψ))
  have h2 := Real.arctan_lt_pi_div_two (β * Real.cos ψ / (1 + β * Real.sin ψ))
  constructor <;> unfold anomaly <;> linarith

/-- Along the turning the anomaly grows evenly. -/
theorem anomaly_even {A B g : ℝ} (h : |A| < B) {φ : ℝ → ℝ} (hφ : ∀ t, HasDerivAt φ (g * (B + A * Real.sin (2 * φ t))) t) (t : ℝ) :
    anomaly (A / (B + √(B ^ 2 - A ^ 2))) (2 * φ t) = anomaly (A / (B + √(B ^ 2 - A ^ 2))) (2 * φ 0) + 2 * (g * √(B ^ 2 - A ^ 2)) * t := by
  obtain ⟨-, hr, hp, hd⟩ := anomaly_rate h
  set E := anomaly (A / (B + √(B ^ 2 - A ^ 2)))
  set r := √(B ^ 2 - A ^ 2)
  have h1 : ∀ s, HasDerivAt (fun s => E (2 * φ s) - 2 * (g * r) * s) 0 s := by
    intro s
    have h2 : HasDerivAt (fun s => E (2 * φ s)) _ s := HasDerivAt.comp (h₂ := E) s (hd (2 * φ s)) ((hφ s).const_mul 2)
    refine (h2.sub ((hasDerivAt_id s).const_mul (2 * (g * r)))).congr_deriv ?_
    have := (hp (2 * φ s)).ne'
    field_simp
    ring
  have := is_const_of_deriv_eq_zero (fun s => (h1 s).differentiableAt) (fun s => (h1 s).deriv) t 0
  simp only [mul_zero, sub_zero] at this
  linarith

theorem advance {A B g : ℝ} (h : |A| < B) (hg : 0 < g) {φ : ℝ → ℝ} (hφ : ∀ t, HasDerivAt φ (g * (B + A * Real.sin (2 * φ t))) t) (t : ℝ) :
    φ (t + Real.pi / (g * √(B ^ 2 - A ^ 2))) = φ t + Real.pi := by
  obtain ⟨-, hr, -, -⟩ := anomaly_rate h
  have h1 := anomaly_even h hφ (t + Real.pi / (g * √(B ^ 2 - A ^ 2)))
  have h2 := anomaly_even h hφ t
  have h3 : 2 * (g * √(B ^ 2 - A ^ 2)) * (Real.pi / (g * √(B ^ 2 - A ^ 2))) = 2 * Real.pi := by field_simp
  have h4 : anomaly (A / (B + √(B ^ 2 - A ^ 2))) (2 * φ (t + Real.pi / (g * √(B ^ 2 - A ^ 2))))
      = anomaly (A / (B + √(B ^ 2 - A ^ 2))) (2 * φ t + 2 * Real.pi) := by
    rw [anomaly_turn, h1, h2, mul_add, h3]
    ring
  have h5 := (anomaly_mono h).injective h4
  linarith

/-- The turning exists for all time from every angle. -/
theorem turning {A B : ℝ} (g : ℝ) (h : |A| < B) (φ0 : ℝ) :
    ∃ φ : ℝ → ℝ, φ 0 = φ0 ∧ ∀ t, HasDerivAt φ (g * (B + A * Real.sin (2 * φ t))) t := by
  obtain ⟨-, hr, hp, hd⟩ := anomaly_rate h
  have hm := anomaly_mono h
  have hn := anomaly_near (A / (B + √(B ^ 2 - A ^ 2)))
  set E := anomaly (A / (B + √(B ^ 2 - A ^ 2)))
  set r := √(B ^ 2 - A ^ 2)
  have hcont : Continuous E := continuous_iff_continuousAt.2 fun ψ => (hd ψ).continuousAt
  have hs : Function.Surjective E := by
    refine hcont.surjective ?_ ?_
    · exact tendsto_atTop_mono (fun ψ => (hn ψ).1) (tendsto_atTop_add_const_right _ _ tendsto_id)
    · exact tendsto_atBot_mono (fun ψ => (hn ψ).2) (tendsto_atBot_add_const_right _ _ tendsto_id)
  let e : ℝ ≃o ℝ := hm.orderIsoOfSurjective E hs
  have he : ∀ x, E (e.symm x) = x := fun x => e.apply_symm_apply x
  have hi : ∀ x, HasDerivAt e.symm ((B + A * Real.sin (e.symm x)) / r) x := by
    intro x
    have h1 := HasDerivAt.of_local_left_inverse (f := E) (g := e.symm) (a := x) e.symm.continuous.continuousAt (hd (e.symm x))
      (div_pos hr (hp _)).ne' (Eventually.of_forall he)
    rwa [inv_div] at h1
  refine ⟨fun t => e.symm (E (2 * φ0) + 2 * (g * r) * t) / 2, ?_, fun t => ?_⟩
  · have : e.symm (E (2 * φ0)) = 2 * φ0 := e.symm_apply_apply (2 * φ0)
    simp [this]
  · have h1 : HasDerivAt (fun t : ℝ => E (2 * φ0) + 2 * (g * r) * t) (2 * (g * r)) t := by
      simpa using ((hasDerivAt_id t).const_mul (2 * (g * r))).const_add (E (2 * φ0))
    have h2 : HasDerivAt (fun t : ℝ => e.symm (E (2 * φ0) + 2 * (g * r) * t)) _ t := (hi _).comp t h1
    refine (h2.div_const 2).congr_deriv ?_
    rw [mul_div_cancel₀ _ (two_ne_zero)]
    field_simp

theorem sign_square (H : ℝ) (c : ℝ) (h : 0 ≤ c) (hH : c < |H|) : ((SignType.sign H : SignType) : ℝ) * H = |H| ∧
    ((SignType.sign H : SignType) : ℝ) * (SignType.sign H : SignType) = 1 := by
  rcases lt_trichotomy H 0 with h1 | rfl | h1
  · simp [sign_neg h1, abs_of_neg h1]
  · simp at hH
    linarith
  · simp [sign_pos h1, abs_of_pos h1]

variable {w : Wall ℝ} {hk J : ℝ} {X φ Δ : ℝ → ℝ}

theorem walker_amp (hα : 0 < w.alpha) (h : w.alpha * |hk| / 2 < |w.Q * w.hz|) : |w.alpha * hk / 2| < |w.Q * w.hz| := by
  rwa [abs_div, abs_mul, abs_of_pos hα, abs_two]

/-- The angle after one period. -/
theorem half_turn (hw : OnlyField w) (hk' : w.Hk = some hk) (hp : WallPath w J X φ Δ) (h : w.alpha * |hk| / 2 < |w.Q * w.hz|) (t : ℝ) :
    φ (t + walkerPeriod w.alpha (w.Q * w.hz) hk) = φ t + SignType.sign (w.Q * w.hz) * Real.pi := by
  have hα := hw.damping
  have ha := walker_amp hα h
  have hg : 0 < 221100 / (1 + w.alpha ^ 2) := by positivity
  have hs := fun t => (angle_slope hw hk' hp t).1
  unfold walkerPeriod walkerRate
  generalize w.Q * w.hz = B at *
  rcases lt_trichotomy B 0 with hB | rfl | hB
  · rw [abs_of_neg hB] at ha
    have h1 := advance (A := w.alpha * hk / 2) (B := -B) ha hg (φ := fun t => -φ t) (fun t => (hs t).neg.congr_deriv (by
      rw [show 2 * -φ t = -(2 * φ t) by ring, Real.sin_neg]
      ring)) t
    rw [neg_sq] at h1
    simp only [sign_neg hB, SignType.coe_neg, SignType.coe_one]
    linarith
  · simp at ha
    exact absurd ha (abs_nonneg _).not_gt
  · rw [abs_of_pos hB] at ha
    simp only [sign_pos hB, SignType.coe_one, one_mul]
    exact advance ha hg hs t

/-- Position and angle together move evenly. -/
theorem even_motion (hw : OnlyField w) (hk' : w.Hk = some hk) (hp : WallPath w J X φ Δ) (t s : ℝ) :
    w.alpha * (X s - X t) = Δ 0 * (221100 * (w.Q * w.hz) * (s - t) - (φ s - φ t)) := by
  have h1 : ∀ s, HasDerivAt (fun s => w.alpha * X s - Δ 0 * (221100 * (w.Q * w.hz) * s - φ s)) 0 s := by
    intro s
    obtain ⟨h1, h2⟩ := angle_slope hw hk' hp s
    have h3 : HasDerivAt (fun s : ℝ => 221100 * (w.Q * w.hz) * s) (221100 * (w.Q * w.hz)) s := by
      simpa using (hasDerivAt_id s).const_mul (221100 * (w.Q * w.hz))
    refine ((h2.const_mul w.alpha).sub ((h3.sub h1).const_mul (Δ 0))).congr_deriv ?_
    have : 1 + w.alpha ^ 2 ≠ 0 := by positivity
    field_simp
    ring
  have := is_const_of_deriv_eq_zero (fun s => (h1 s).differentiableAt) (fun s => (h1 s).deriv) s t
  linarith

theorem walkerRate_pos (hα : 0 < w.alpha) (h : w.alpha * |hk| / 2 < |w.Q * w.hz|) : 0 < walkerRate w.alpha (w.Q * w.hz) hk := by
  have ha := walker_amp hα h
  have h1 := sq_lt_sq.2 ha
  exact mul_pos (by positivity) (Real.sqrt_pos.2 (by linarith))

/-- C139: beyond the Walker field the angle makes half a turn, in the direction of the field, in the textbook period and in no other time. -/
theorem C139_period (hw : OnlyField w) (hk' : w.Hk = some hk) (hp : WallPath w J X φ Δ) (h : w.alpha * |hk| / 2 < |w.Q * w.hz|) (t s : ℝ) :
    φ (t + s) = φ t + SignType.sign (w.Q * w.hz) * Real.pi ↔ s = walkerPeriod w.alpha (w.Q * w.hz) hk := by
  refine ⟨fun e => ?_, fun e => e ▸ half_turn hw hk' hp h t⟩
  rw [← half_turn hw hk' hp h t] at e
  have hα := hw.damping
  have ha := walker_amp hα h
  obtain ⟨h1, h2⟩ := sign_square (w.Q * w.hz) _ (by positivity) h
  have hm : StrictMono fun t => (SignType.sign (w.Q * w.hz) : ℝ) * φ t := by
    refine strictMono_of_deriv_pos fun t => ?_
    have hd := ((angle_slope hw hk' hp t).1.const_mul (SignType.sign (w.Q * w.hz) : ℝ))
    rw [hd.deriv]
    have hg : 0 < 221100 / (1 + w.alpha ^ 2) := by positivity
    have h3 : |(SignType.sign (w.Q * w.hz) : ℝ) * (w.alpha * hk / 2 * Real.sin (2 * φ t))| ≤ |w.alpha * hk / 2| := by
      have h4 : |((SignType.sign (w.Q * w.hz) : SignType) : ℝ)| = 1 := by
        rw [← sq_eq_sq₀ (abs_nonneg _) zero_le_one, sq_abs, sq, h2, one_pow]
      rw [abs_mul, h4, one_mul, abs_mul]
      exact mul_le_of_le_one_right (abs_nonneg _) (Real.abs_sin_le_one _)
    have h5 : 0 < (SignType.sign (w.Q * w.hz) : ℝ) * (w.Q * w.hz) + (SignType.sign (w.Q * w.hz) : ℝ) * (w.alpha * hk / 2 * Real.sin (2 * φ t)) := by
      rw [h1]
      linarith [(abs_le.1 h3).1]
    calc (0 : ℝ) < 221100 / (1 + w.alpha ^ 2) * ((SignType.sign (w.Q * w.hz) : ℝ) * (w.Q * w.hz) + (SignType.sign (w.Q * w.hz) : ℝ) *
          (w.alpha * hk / 2 * Real.sin (2 * φ t))) := mul_pos hg h5
      _ = _ := by ring
  have := hm.injective (congrArg (fun x => (SignType.sign (w.Q * w.hz) : ℝ) * x) e)
  linarith

/-- C139: in every period the wall moves on by the textbook mean velocity times the period. -/
theorem C139_drift (hw : OnlyField w) (hk' : w.Hk = some hk) (hp : WallPath w J X φ Δ) (h : w.alpha * |hk| / 2 < |w.Q * w.hz|) (t : ℝ) :
    X (t + walkerPeriod w.alpha (w.Q * w.hz) hk) =
      X t + walkerDrift w.alpha (w.Q * w.hz) hk (Δ 0) * walkerPeriod w.alpha (w.Q * w.hz) hk := by
  have hα := hw.damping
  have hr := walkerRate_pos hα h
  have h1 := even_motion hw hk' hp t (t + walkerPeriod w.alpha (w.Q * w.hz) hk)
  rw [half_turn hw hk' hp h t, add_sub_cancel_left, add_sub_cancel_left] at h1
  have h2 : walkerRate w.alpha (w.Q * w.hz) hk * walkerPeriod w.alpha (w.Q * w.hz) hk = Real.pi := by
    unfold walkerPeriod
    field_simp
  have h3 : w.alpha * walkerDrift w.alpha (w.Q * w.hz) hk (Δ 0) =
      Δ 0 * (221100 * (w.Q * w.hz) - SignType.sign (w.Q * w.hz) * walkerRate w.alpha (w.Q * w.hz) hk) := by
    unfold walkerDrift walkerRate
    have : 1 + w.alpha ^ 2 ≠ 0 := by positivity
    field_simp
  refine mul_left_cancel₀ hα.ne' ?_
  linear_combination h1 + (-walkerPeriod w.alpha (w.Q * w.hz) hk) * h3 + (Δ 0 * SignType.sign (w.Q * w.hz)) * h2

/-- C139: over long times the mean velocity is the textbook one. -/
theorem C139_mean (hw : OnlyField w) (hk' : w.Hk = some hk) (hp : WallPath w J X φ Δ) (h : w.alpha * |hk| / 2 < |w.Q * w.hz|) :
    Tendsto (fun t => X t / t) atTop (𝓝 (walkerDrift w.alpha (w.Q * w.hz) hk (Δ 0))) := by
  have hα := hw.damping
  have hr := walkerRate_pos hα h
  set T := walkerPeriod w.alpha (w.Q * w.hz) hk with hTd
  have hT : 0 < T := div_pos Real.pi_pos hr
  set v := walkerDrift w.alpha (w.Q * w.hz) hk (Δ 0)
  have hper : Function.Periodic (fun t => X t - v * t) T := by
    intro t
    have e := C139_drift hw hk' hp h t
    change X (t + T) = X t + v * T at e
    change X (t + T) - v * (t + T) = X t - v * t
    rw [e]
    ring
  have hc : Continuous fun t => X t - v * t :=
    (continuous_iff_continuousAt.2 fun t => (angle_slope hw hk' hp t).2.continuousAt).sub (continuous_const.mul continuous_id)
  obtain ⟨C, hC⟩ := (isCompact_Icc (a := (0 : ℝ)) (b := T)).exists_bound_of_continuousOn hc.continuousOn
  have hb : ∀ t, |X t - v * t| ≤ C := by
    intro t
    obtain ⟨s, hs, e⟩ := hper.exists_mem_Ico₀ hT t
    have := hC s ⟨hs.1, hs.2.le⟩
    rw [Real.norm_eq_abs] at this
    change X t - v * t = X s - v * s at e
    rwa [e]
  have h0 : Tendsto (fun t : ℝ => (X t - v * t) / t) atTop (𝓝 0) := by
    refine squeeze_zero_norm' ((eventually_gt_atTop 0).mono fun t ht => ?_) (tendsto_const_nhds (x := C).div_atTop tendsto_id)
    rw [norm_div, Real.norm_eq_abs, Real.norm_eq_abs, abs_of_pos ht]
    exact div_le_div_of_nonneg_right (hb t) ht.le
  have h1 := h0.add (tendsto_const_nhds (x := v))
  rw [zero_add] at h1
  refine h1.congr' ((eventually_gt_atTop 0).mono fun t ht => ?_)
  have := ht.ne'
  field_simp
  ring

/-- C139: the wall drifts along the field, and slower than the mobility below the Walker field would have it. -/
theorem C139_slower (hα : 0 < w.alpha) {δ : ℝ} (hδ : 0 < δ) (h : w.alpha * |hk| / 2 < |w.Q * w.hz|) :
    0 < SignType.sign (w.Q * w.hz) * walkerDrift w.alpha (w.Q * w.hz) hk δ ∧
    SignType.sign (w.Q * w.hz) * walkerDrift w.alpha (w.Q * w.hz) hk δ < 221100 * δ / w.alpha * |w.Q * w.hz| := by
  obtain ⟨h1, h2⟩ := sign_square (w.Q * w.hz) _ (by positivity) h
  have e : SignType.sign (w.Q * w.hz) * walkerDrift w.alpha (w.Q * w.hz) hk δ =
      221100 * δ / w.alpha * (|w.Q * w.hz| - √((w.Q * w.hz) ^ 2 - (w.alpha * hk / 2) ^ 2) / (1 + w.alpha ^ 2)) := by
    unfold walkerDrift
    linear_combination (221100 * δ / w.alpha) * h1 -
      (221100 * δ / w.alpha) * (√((w.Q * w.hz) ^ 2 - (w.alpha * hk / 2) ^ 2) / (1 + w.alpha ^ 2)) * h2
  have hg : 0 < 221100 * δ / w.alpha := by positivity
  have hs : 0 < √((w.Q * w.hz) ^ 2 - (w.alpha * hk / 2) ^ 2) := Real.sqrt_pos.2 (by linarith [sq_lt_sq.2 (walker_amp hα h)])
  have hB : 0 < |w.Q * w.hz| := lt_of_le_of_lt (by positivity) h
  have hle : √((w.Q * w.hz) ^ 2 - (w.alpha * hk / 2) ^ 2) ≤ |w.Q * w.hz| := Real.sqrt_le_iff.2 ⟨hB.le, by
    rw [sq_abs]
    linarith [sq_nonneg (w.alpha * hk / 2)]⟩
  have hlt : √((w.Q * w.hz) ^ 2 - (w.alpha * hk / 2) ^ 2) / (1 + w.alpha ^ 2) < |w.Q * w.hz| := by
    rw [div_lt_iff₀ (by positivity)]
    nlinarith [mul_pos hB (pow_pos hα 2)]
  rw [e]
  refine ⟨mul_pos hg (by linarith), mul_lt_mul_of_pos_left ?_ hg⟩
  linarith [div_pos hs (by positivity : 0 < 1 + w.alpha ^ 2)]

/-- C139: beyond the Walker field the equations have a solution for all times from every position, angle and width. -/
theorem C139_exists (hw : OnlyField w) (hk' : w.Hk = some hk) (h : w.alpha * |hk| / 2 < |w.Q * w.hz|) (J X₀ φ₀ Δ₀ : ℝ) :
    ∃ X φ Δ, WallPath w J X φ Δ ∧ X 0 = X₀ ∧ φ 0 = φ₀ ∧ Δ 0 = Δ₀ := by
  have hα := hw.damping
  have ha := walker_amp hα h
  obtain ⟨φ, h0, hφ⟩ : ∃ φ : ℝ → ℝ, φ 0 = φ₀ ∧
      ∀ t, HasDerivAt φ (221100 / (1 + w.alpha ^ 2) * (w.Q * w.hz + w.alpha * hk / 2 * Real.sin (2 * φ t))) t := by
    rcases lt_or_ge (w.Q * w.hz) 0 with hB | hB
    · rw [abs_of_neg hB] at ha
      obtain ⟨ψ, h1, h2⟩ := turning (221100 / (1 + w.alpha ^ 2)) ha (-φ₀)
      refine ⟨fun t => -ψ t, by simp [h1], fun t => (h2 t).neg.congr_deriv ?_⟩
      rw [show 2 * -ψ t = -(2 * ψ t) by ring, Real.sin_neg]
      ring
    · rw [abs_of_nonneg hB] at ha
      exact turning _ ha φ₀
  refine ⟨fun t => X₀ + Δ₀ / w.alpha * (221100 * (w.Q * w.hz) * t - (φ t - φ₀)), φ, fun _ => Δ₀, fun t => ?_, by simp [h0], h0, rfl⟩
  refine ⟨_, _, _, only_field hw hk' J t _ (φ t) Δ₀, ?_, hφ t, hasDerivAt_const t Δ₀⟩
  have h3 : HasDerivAt (fun s : ℝ => 221100 * (w.Q * w.hz) * s) (221100 * (w.Q * w.hz)) t := by
    simpa using (hasDerivAt_id t).const_mul (221100 * (w.Q * w.hz))
  refine (((h3.sub ((hφ t).sub_const φ₀)).const_mul (Δ₀ / w.alpha)).const_add X₀).congr_deriv ?_
  have : 1 + w.alpha ^ 2 ≠ 0 := by positivity
  field_simp
  ring

/-! ### A case that meets the hypotheses -/

/-- The damping 1/2, the anisotropy 12 A/m (Walker field 3 A/m) and the field 5 A/m: the wall turns, and drifts at 9/25
of the speed that the mobility below the Walker field would give. -/
example (J : ℝ) : ∃ X φ Δ, WallPath { wall with hz := 5, Hk := some 12 } J X φ Δ ∧ X 0 = 0 ∧ φ 0 = 1 ∧ Δ 0 = 1 ∧
    (∀ t, φ (t + Real.pi / (221100 * (4 / 5) * 4)) = φ t + Real.pi) ∧
    Tendsto (fun t => X t / t) atTop (𝓝 (221100 * 2 * (5 - 16 / 5))) := by
  have hα : wall.alpha = 1 / 2 := by norm_num [wall]
  have hQ : wall.Q = 1 := by norm_num [wall]
  have h : wall.alpha * |(12 : ℝ)| / 2 < |wall.Q * 5| := by norm_num [hα, hQ]
  have hs : √(16 : ℝ) = 4 := by
    rw [show (16 : ℝ) = 4 ^ 2 by norm_num]
    exact Real.sqrt_sq (by norm_num)
  obtain ⟨X, φ, Δ, hp, h1, h2, h3⟩ := C139_exists (wall_only 5 (some 12)) rfl h J 0 1 1
  refine ⟨X, φ, Δ, hp, h1, h2, h3, fun t => ?_, ?_⟩
  · have := half_turn (wall_only 5 (some 12)) rfl hp h t
    simp only [walkerPeriod, walkerRate, hα, hQ] at this
    norm_num [hs] at this ⊢
    exact this
  · have := C139_mean (wall_only 5 (some 12)) rfl hp h
    simp only [walkerDrift, hα, hQ, h3] at this
    norm_num [hs] at this ⊢
    exact this

end Domain
