import Verif.Props.CurrentWall

set_option linter.unusedSectionVars false
set_option linter.unusedSimpArgs false

/-!
C148: chiral walls driven by the spin Hall effect (Thiaville et al., 2012; Emori et al., 2013, which the code cites).
-/

namespace Spec
open Domain

/-- Only the spin Hall field `s` of a constant current and the DMI act on the wall; its width is fixed. -/
structure HallDriven (w : Wall ℝ) (s : ℝ) : Prop where
  hall : ∀ t, w.Hshe * w.je t = s
  transfer : ∀ t, w.bj * w.je t = 0
  easy : w.Hk = some 0
  rashba : w.Hr = 0
  hx : w.hx = 0
  hy : w.hy = 0
  hz : w.hz = 0
  pin : w.V0pin = 0
  edge : w.V0edge = 0
  static : w.relax ≠ .dynamic
  kind : w.Q = 1 ∨ w.Q = -1
  damping : 0 < w.alpha

/-- The DMI field of a wall of width `Δ`. -/
noncomputable def chiralField (w : Wall ℝ) (Δ : ℝ) : ℝ := w.D / (12.566e-7 * w.Ms * Δ)

/-- The velocity of a wall of width `Δ` in the spin Hall field `s` and the DMI field `d`. -/
noncomputable def hallVelocity (α Δ d s : ℝ) : ℝ := 221100 * Δ * (Real.pi / 2) * (d * s / √(s ^ 2 + (α * d) ^ 2))

end Spec

namespace Domain
open Filter Topology Spec

variable {w : Wall ℝ} {s J : ℝ} {X φ Δ : ℝ → ℝ}

theorem hall_rhs (h : HallDriven w s) (J t x p d : ℝ) : (Walls.mk [w] J).rhs t [x, p, d] =
    .ok [221100 * d * (Real.pi / 2) / (1 + w.alpha ^ 2) * (w.Q * (chiralField w d * Real.sin p + w.alpha * (s * Real.cos p))),
      221100 * (Real.pi / 2) / (1 + w.alpha ^ 2) * (w.Q * (s * Real.cos p - w.alpha * (chiralField w d * Real.sin p))), 0] := by
  rw [rhs_one w J t x p d 0 h.easy, if_neg h.static]
  have hm : (w.hdmi d : ℝ) = chiralField w d := by
    simp only [Wall.hdmi, chiralField, mu0, Scalar.ofSci_real_true]
  have hb : gammaB x p w.Q d (w.Hshe * w.je t) w.hz w.Hr w.beta (w.bj * w.je t) w.Ms w.Lx w.Ly w.Lz w.V0pin w.V0edge w.pinning
        = 221100 * (w.Q * (Real.pi / 2 * s * Real.cos p)) := by
    simp [gammaB, pinningField, edgeField, h.hall, h.transfer, h.rashba, h.hz, h.pin, h.edge, gyro]
  have ha : gammaA p w.Q d 0 w.hx w.hy (w.hdmi d) (w.bj * w.je t) 0 = 221100 * (w.Q * (Real.pi / 2) * chiralField w d * Real.sin p) := by
    rw [hm, h.transfer]
    simp only [gammaA, h.hx, h.hy, gyro]
    simp
    norm_num
  simp only [Wall.dynamics, ha, hb, Except.ok.injEq, List.cons.injEq, and_true]
  constructor <;> ring

/-- helper: the angle of a point of the plane -/
theorem polar (a b : ℝ) : ∃ q, a = √(b ^ 2 + a ^ 2) * Real.cos q ∧ b = √(b ^ 2 + a ^ 2) * Real.sin q := by
  refine ⟨Complex.arg ⟨a, b⟩, ?_, ?_⟩
  · have := Complex.norm_mul_cos_arg ⟨a, b⟩
    rw [Complex.norm_def, Complex.normSq_mk] at this
    rw [show b ^ 2 + a ^ 2 = a * a + b * b by ring]
    exact this.symm
  · have := Complex.norm_mul_sin_arg ⟨a, b⟩
    rw [Complex.norm_def, Complex.normSq_mk] at this
    rw [show b ^ 2 + a ^ 2 = a * a + b * b by ring]
    exact this.symm

theorem hall_width (h : HallDriven w s) (hp : WallPath w J X φ Δ) (t : ℝ) : Δ t = Δ 0 := by
  refine constant (fun t => ?_) t
  obtain ⟨a, b, c, e, -, -, hc⟩ := hp t
  rw [hall_rhs h] at e
  simp only [Except.ok.injEq, List.cons.injEq, and_true] at e
  rw [e.2.2]
  exact hc

/-- C148. The steady motions have the velocity of theory, in one direction or the other. -/
theorem C148_steady (h : HallDriven w s) (J t x : ℝ) {d : ℝ} (hR : s ≠ 0 ∨ chiralField w d ≠ 0) :
    (∃ p, (Walls.mk [w] J).rhs t [x, p, d] = .ok [hallVelocity w.alpha d (chiralField w d) s, 0, 0]) ∧
    ∀ p v, (Walls.mk [w] J).rhs t [x, p, d] = .ok [v, 0, 0] →
      v = hallVelocity w.alpha d (chiralField w d) s ∨ v = -hallVelocity w.alpha d (chiralField w d) s := by
  have hα := h.damping
  have hQ : w.Q * w.Q = 1 := by rcases h.kind with e | e <;> rw [e] <;> norm_num
  have hg : 1 + w.alpha ^ 2 ≠ 0 := by positivity
  generalize hc : chiralField w d = c at *
  have hpos : 0 < s ^ 2 + (w.alpha * c) ^ 2 := by
    rcases hR with e | e
    · positivity
    · have : w.alpha * c ≠ 0 := mul_ne_zero hα.ne' e
      positivity
  have hr : 0 < √(s ^ 2 + (w.alpha * c) ^ 2) := Real.sqrt_pos.2 hpos
  have hsq := Real.sq_sqrt hpos.le
  constructor
  · obtain ⟨q, h1, h2⟩ := polar (w.Q * (w.alpha * c)) (w.Q * s)
    rw [show (w.Q * s) ^ 2 + (w.Q * (w.alpha * c)) ^ 2 = s ^ 2 + (w.alpha * c) ^ 2 by
      linear_combination (s ^ 2 + (w.alpha * c) ^ 2) * hQ] at h1 h2
    refine ⟨q, ?_⟩
    rw [hall_rhs h, hc, hallVelocity]
    generalize √(s ^ 2 + (w.alpha * c) ^ 2) = r at *
    have hcos : Real.cos q = w.Q * (w.alpha * c) / r := by rw [h1]; field_simp
    have hsin : Real.sin q = w.Q * s / r := by rw [h2]; field_simp
    simp only [Except.ok.injEq, List.cons.injEq, and_true]
    rw [hcos, hsin]
    constructor
    · field_simp
      linear_combination (d * s * c) * hQ
    · field_simp
      ring
  · intro p v e
    rw [hall_rhs h, hc] at e
    simp only [Except.ok.injEq, List.cons.injEq, and_true] at e
    obtain ⟨e1, e2⟩ := e
    have hk : 221100 * (Real.pi / 2) / (1 + w.alpha ^ 2) ≠ 0 := by have := Real.pi_pos; positivity
    have hq0 : w.Q ≠ 0 := fun e => by rw [e] at hQ; norm_num at hQ
    have e3 : s * Real.cos p = w.alpha * (c * Real.sin p) := by
      have := (mul_eq_zero.1 e2).resolve_left hk
      linarith [(mul_eq_zero.1 this).resolve_left hq0]
    rw [hallVelocity]
    generalize √(s ^ 2 + (w.alpha * c) ^ 2) = r at *
    have hcs := Real.sin_sq_add_cos_sq p
    have hsin : (r * Real.sin p) ^ 2 = s ^ 2 := by
      rw [mul_pow, hsq]
      linear_combination (s ^ 2) * hcs - (s * Real.cos p + w.alpha * (c * Real.sin p)) * e3
    have hv : v = 221100 * d * (Real.pi / 2) * (w.Q * c * Real.sin p) := by
      rw [← e1, e3]
      field_simp
    have hs : w.Q * (r * Real.sin p) = s ∨ w.Q * (r * Real.sin p) = -s := by
      refine sq_eq_sq_iff_eq_or_eq_neg.1 ?_
      linear_combination hsin + (r * Real.sin p) ^ 2 * hQ
    rcases hs with e | e
    · left
      rw [hv, ← e]
      field_simp
    · right
      rw [hv, show s = -(w.Q * (r * Real.sin p)) by rw [e]; ring]
      field_simp

/-- helper: a path of `ψ' = -c sin ψ` that does not start at the top comes to rest at the bottom -/
theorem pendulum {ψ : ℝ → ℝ} {c : ℝ} (hc : 0 < c) (h : ∀ t, HasDerivAt ψ (-(c * Real.sin (ψ t))) t) (h0 : Real.cos (ψ 0) ≠ -1) :
    Tendsto (fun t => Real.cos (ψ t)) atTop (𝓝 1) := by
  have hq : ∀ t, HasDerivAt (fun t => Real.cos (ψ t)) (c * Real.sin (ψ t) ^ 2) t := fun t =>
    (h t).cos.congr_deriv (by ring)
  have hm : Monotone fun t => Real.cos (ψ t) := monotone_of_deriv_nonneg (fun t => (hq t).differentiableAt) fun t => by
    rw [(hq t).deriv]; positivity
  have hgt : -1 < Real.cos (ψ 0) := lt_of_le_of_ne (Real.neg_one_le_cos _) (Ne.symm h0)
  have hp : ∀ t, 0 ≤ t → 0 < 1 + Real.cos (ψ t) := fun t ht => by linarith [hm ht]
  -- the ratio falls exponentially
  have hconst : ∀ t, 0 ≤ t → (1 - Real.cos (ψ t)) / (1 + Real.cos (ψ t)) * Real.exp (2 * c * t) =
      (1 - Real.cos (ψ 0)) / (1 + Real.cos (ψ 0)) := by
    intro t ht
    have hd : ∀ x ∈ Set.Icc 0 t, HasDerivWithinAt (fun t => (1 - Real.cos (ψ t)) / (1 + Real.cos (ψ t)) * Real.exp (2 * c * t)) 0
        (Set.Icc 0 t) x := by
      intro x hx
      have hx' := (hp x hx.1).ne'
      have h1 := (((hq x).const_sub 1).div ((hq x).const_add 1) hx').mul (((hasDerivAt_id x).const_mul (2 * c)).exp)
      refine (h1.congr_deriv ?_).hasDerivWithinAt
      have hs := Real.sin_sq_add_cos_sq (ψ x)
      simp only [id, Pi.div_apply]
      field_simp
      linear_combination (-(2 * c * Real.exp (c * 2 * x))) * hs
    have := constant_of_has_deriv_right_zero (fun x hx => (hd x hx).continuousWithinAt)
      (fun x hx => ((hd x ⟨hx.1, hx.2.le⟩).mono_of_mem_nhdsWithin (Icc_mem_nhdsGE_of_mem hx))) t ⟨ht, le_rfl⟩
    simpa using this
  have hr : Tendsto (fun t => (1 - Real.cos (ψ 0)) / (1 + Real.cos (ψ 0)) * Real.exp (-(2 * c * t))) atTop (𝓝 0) := by
    have : Tendsto (fun t => 2 * c * t) atTop atTop := tendsto_id.const_mul_atTop (by positivity)
    simpa using (Real.tendsto_exp_neg_atTop_nhds_zero.comp this).const_mul ((1 - Real.cos (ψ 0)) / (1 + Real.cos (ψ 0)))
  have hr2 : Tendsto (fun t => (1 - Real.cos (ψ t)) / (1 + Real.cos (ψ t))) atTop (𝓝 0) := by
    refine hr.congr' ?_
    filter_upwards [eventually_ge_atTop 0] with t ht
    rw [← hconst t ht, mul_assoc, ← Real.exp_add]
    simp
  have : Tendsto (fun t => (1 - (1 - Real.cos (ψ t)) / (1 + Real.cos (ψ t))) / (1 + (1 - Real.cos (ψ t)) / (1 + Real.cos (ψ t)))) atTop
      (𝓝 ((1 - 0) / (1 + 0))) := (hr2.const_sub 1).div (hr2.const_add 1) (by norm_num)
  norm_num at this
  refine this.congr' ?_
  filter_upwards [eventually_ge_atTop 0] with t ht
  have := (hp t ht).ne'
  field_simp
  ring

/-- C148. Every wall settles: unless it starts exactly at the unstable angle, its velocity tends to that of theory, whose direction is given by
the signs of the DMI and the current and is the same for both kinds of walls. -/
theorem C148_settles (h : HallDriven w s) (hp : WallPath w J X φ Δ) (hR : s ≠ 0 ∨ chiralField w (Δ 0) ≠ 0)
    (h0 : ¬ (Real.cos (φ 0) = -(w.Q * (w.alpha * chiralField w (Δ 0))) / √(s ^ 2 + (w.alpha * chiralField w (Δ 0)) ^ 2) ∧
      Real.sin (φ 0) = -(w.Q * s) / √(s ^ 2 + (w.alpha * chiralField w (Δ 0)) ^ 2))) :
    ∃ v : ℝ → ℝ, (∀ t, HasDerivAt X (v t) t) ∧ Tendsto v atTop (𝓝 (hallVelocity w.alpha (Δ 0) (chiralField w (Δ 0)) s)) := by
  have hα := h.damping
  have hQ : w.Q * w.Q = 1 := by rcases h.kind with e | e <;> rw [e] <;> norm_num
  have hg : 0 < 1 + w.alpha ^ 2 := by positivity
  have hpi := Real.pi_pos
  generalize hc : chiralField w (Δ 0) = c at *
  have hpos : 0 < s ^ 2 + (w.alpha * c) ^ 2 := by
    rcases hR with e | e
    · positivity
    · have : w.alpha * c ≠ 0 := mul_ne_zero hα.ne' e
      positivity
  have hr : 0 < √(s ^ 2 + (w.alpha * c) ^ 2) := Real.sqrt_pos.2 hpos
  obtain ⟨q, h1, h2⟩ := polar (w.Q * (w.alpha * c)) (w.Q * s)
  rw [show (w.Q * s) ^ 2 + (w.Q * (w.alpha * c)) ^ 2 = s ^ 2 + (w.alpha * c) ^ 2 by
    linear_combination (s ^ 2 + (w.alpha * c) ^ 2) * hQ] at h1 h2
  rw [hallVelocity]
  generalize √(s ^ 2 + (w.alpha * c) ^ 2) = r at *
  have move : ∀ t, HasDerivAt X (221100 * Δ 0 * (Real.pi / 2) / (1 + w.alpha ^ 2) *
        (w.Q * (c * Real.sin (φ t) + w.alpha * (s * Real.cos (φ t))))) t ∧
      HasDerivAt φ (221100 * (Real.pi / 2) / (1 + w.alpha ^ 2) * (w.Q * (s * Real.cos (φ t) - w.alpha * (c * Real.sin (φ t))))) t := by
    intro t
    obtain ⟨a, b, d, e, k1, k2, -⟩ := hp t
    rw [hall_rhs h, hall_width h hp t, hc] at e
    simp only [Except.ok.injEq, List.cons.injEq, and_true] at e
    rw [e.1, e.2.1]
    exact ⟨k1, k2⟩
  have hψ : ∀ t, HasDerivAt (fun t => φ t - q) (-(221100 * (Real.pi / 2) / (1 + w.alpha ^ 2) * r * Real.sin (φ t - q))) t := by
    intro t
    refine ((move t).2.sub_const q).congr_deriv ?_
    rw [Real.sin_sub]
    linear_combination (221100 * (Real.pi / 2) / (1 + w.alpha ^ 2)) * (Real.cos (φ t) * h2 - Real.sin (φ t) * h1)
  have hcos : Real.cos q = w.Q * (w.alpha * c) / r := by rw [h1]; field_simp
  have hsin : Real.sin q = w.Q * s / r := by rw [h2]; field_simp
  have hlim := pendulum (by positivity) hψ (fun e => h0 (by
    have e1 : φ 0 = (φ 0 - q) + q := by ring
    have e2 : Real.sin (φ 0 - q) = 0 := by
      have := Real.sin_sq_add_cos_sq (φ 0 - q)
      rw [e] at this
      nlinarith
    rw [e1, Real.cos_add, Real.sin_add, e, e2, hcos, hsin]
    constructor <;> ring))
  have hlim2 : Tendsto (fun t => Real.sin (φ t - q)) atTop (𝓝 0) := by
    rw [tendsto_zero_iff_abs_tendsto_zero]
    have : Tendsto (fun t => √(1 - Real.cos (φ t - q) ^ 2)) atTop (𝓝 (√(1 - 1 ^ 2))) := ((hlim.pow 2).const_sub 1).sqrt
    norm_num at this
    refine this.congr fun t => ?_
    rw [Function.comp_apply, Real.abs_sin_eq_sqrt_one_sub_cos_sq]
  refine ⟨_, fun t => (move t).1, ?_⟩
  have hl : Tendsto (fun t => 221100 * Δ 0 * (Real.pi / 2) / (1 + w.alpha ^ 2) * (w.Q *
      (c * (Real.sin (φ t - q) * Real.cos q + Real.cos (φ t - q) * Real.sin q) +
        w.alpha * (s * (Real.cos (φ t - q) * Real.cos q - Real.sin (φ t - q) * Real.sin q))))) atTop
      (𝓝 (221100 * Δ 0 * (Real.pi / 2) / (1 + w.alpha ^ 2) * (w.Q *
      (c * (0 * Real.cos q + 1 * Real.sin q) + w.alpha * (s * (1 * Real.cos q - 0 * Real.sin q)))))) :=
    ((((hlim2.mul_const _).add (hlim.mul_const _)).const_mul c).add
      ((((hlim.mul_const _).sub (hlim2.mul_const _)).const_mul s).const_mul w.alpha)).const_mul w.Q |>.const_mul _
  have hval : 221100 * Δ 0 * (Real.pi / 2) * (c * s / r) = 221100 * Δ 0 * (Real.pi / 2) / (1 + w.alpha ^ 2) * (w.Q *
      (c * (0 * Real.cos q + 1 * Real.sin q) + w.alpha * (s * (1 * Real.cos q - 0 * Real.sin q)))) := by
    rw [hcos, hsin]
    field_simp
    linear_combination (-(Δ 0 * c * s * (1 + w.alpha ^ 2))) * hQ
  rw [hval]
  refine hl.congr fun t => ?_
  rw [← Real.sin_add, ← Real.cos_add, sub_add_cancel]

/-- C148. However strong the current, the velocity stays below `γ (π/2) Δ d`, and it tends to it. -/
theorem C148_saturates (α : ℝ) {Δ d : ℝ} (hα : 0 < α) (hΔ : 0 < Δ) (hd : 0 < d) :
    (∀ s, |hallVelocity α Δ d s| < 221100 * Δ * (Real.pi / 2) * d) ∧
    Tendsto (fun s => hallVelocity α Δ d s) atTop (𝓝 (221100 * Δ * (Real.pi / 2) * d)) := by
  have hpi := Real.pi_pos
  have hk : 0 < 221100 * Δ * (Real.pi / 2) := by positivity
  constructor
  · intro s
    rw [hallVelocity, abs_mul, abs_of_pos hk]
    refine mul_lt_mul_of_pos_left ?_ hk
    have hr : |s| < √(s ^ 2 + (α * d) ^ 2) := by
      rw [← Real.sqrt_sq_eq_abs]
      exact Real.sqrt_lt_sqrt (sq_nonneg _) (by nlinarith [mul_pos hα hd])
    rw [abs_div, abs_mul, abs_of_pos hd, abs_of_nonneg (Real.sqrt_nonneg _), div_lt_iff₀ (lt_of_le_of_lt (abs_nonneg s) hr)]
    exact mul_lt_mul_of_pos_left hr hd
  · have h1 : Tendsto (fun s : ℝ => √(1 + (α * d / s) ^ 2)) atTop (𝓝 (√(1 + 0 ^ 2))) :=
      (((tendsto_const_nhds.div_atTop tendsto_id).pow 2).const_add 1).sqrt
    have h2 := (tendsto_const_nhds (x := d) (f := atTop (α := ℝ))).div h1 (by norm_num)
    have h3 := h2.const_mul (221100 * Δ * (Real.pi / 2))
    norm_num at h3
    refine h3.congr' ?_
    filter_upwards [eventually_gt_atTop 0] with s hs
    have : √(s ^ 2 + (α * d) ^ 2) = s * √(1 + (α * d / s) ^ 2) := by
      rw [← Real.sqrt_sq hs.le, ← Real.sqrt_mul (sq_nonneg _), Real.sqrt_sq hs.le]
      congr 1
      field_simp
    simp only [hallVelocity, this, Pi.div_apply]
    field_simp

/-- A wall with the spin Hall field 3, the DMI field 8 and the damping 1/2: at the angle with cosine 4/5 it moves steadily, which is the stable
motion. -/
example (J : ℝ) : ∃ (w : Wall ℝ) (p : ℝ), HallDriven w 3 ∧ chiralField w 1 = 8 ∧ w.alpha = 1 / 2 ∧ w.Q = 1 ∧
    Real.cos p = 4 / 5 ∧ Real.sin p = 3 / 5 ∧
    WallPath w J (fun t => 221100 * (Real.pi / 2) * (24 / 5) * t) (fun _ => p) fun _ => 1 := by
  have hα : wall.alpha = 1 / 2 := by norm_num [wall]
  have hQ : wall.Q = 1 := by norm_num [wall]
  have hw : HallDriven { wall with hz := 0, Hk := some 0, D := 8 * 12.566e-7, Hshe := 3, je := fun _ => 1 } 3 :=
    ⟨fun _ => by simp, fun _ => by simp [wall], rfl, rfl, rfl, rfl, rfl, rfl, rfl, by simp [wall], .inl rfl, by norm_num [wall]⟩
  have hc : chiralField { wall with hz := 0, Hk := some 0, D := 8 * 12.566e-7, Hshe := 3, je := fun _ => 1 } 1 = 8 := by
    norm_num [chiralField, wall]
  have h1 : Real.sin (Real.arcsin (3 / 5)) = 3 / 5 := Real.sin_arcsin (by norm_num) (by norm_num)
  have h2 : Real.cos (Real.arcsin (3 / 5)) = 4 / 5 := by
    rw [Real.cos_arcsin, show (1 : ℝ) - (3 / 5) ^ 2 = (4 / 5) ^ 2 by norm_num]
    exact Real.sqrt_sq (by norm_num)
  refine ⟨_, Real.arcsin (3 / 5), hw, hc, hα, hQ, h2, h1, fun t => ?_⟩
  refine ⟨_, _, _, hall_rhs hw J t _ _ _, ?_, ?_, hasDerivAt_const _ _⟩
  · refine ((hasDerivAt_id t).const_mul _).congr_deriv ?_
    rw [hc, h1, h2]
    simp only [hα, hQ]
    ring
  · refine (hasDerivAt_const t _).congr_deriv ?_
    rw [hc, h1, h2]
    simp only [hα, hQ]
    ring

end Domain
