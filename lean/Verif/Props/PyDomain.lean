import Verif.Model.PyDomain
import Verif.Spec.PyDomain
import Mathlib.Analysis.SpecialFunctions.Trigonometric.Deriv
import Mathlib.Analysis.SpecialFunctions.Trigonometric.DerivHyp

set_option linter.unusedSectionVars false

/-!
C59 (logged velocities), C75 (wall equations), C76 (pinning and edge fields) of `cmtj/models/domain_dynamics.py`.
-/

open Spec

namespace Domain

theorem get_nat (y : List ℝ) (i : ℕ) : get y (i : ℤ) = y.getD i 0 := by
  unfold get
  rw [if_pos (by positivity)]
  simp

theorem gyro_pos : (0 : ℝ) < gyro := by norm_num [gyro]
theorem mu0_pos : (0 : ℝ) < mu0 := by
  unfold mu0; simp only [Scalar.ofSci_real_true]; norm_num

/-! ### C59 -/

theorem rowsFrom_get (st : Step ℝ) (ws : List (Wall ℝ)) (a i : ℕ) :
    (rowsFrom st a ws)[i]? = ws[i]?.map (rowOf st (a + i)) := by
  induction ws generalizing a i with
  | nil => simp [rowsFrom]
  | cons w ws ih =>
    cases i with
    | zero => simp [rowsFrom]
    | succ i =>
      simp only [rowsFrom, List.getElem?_cons_succ, ih]
      congr 2
      omega

theorem rowsFrom_length (st : Step ℝ) (ws : List (Wall ℝ)) (a : ℕ) : (rowsFrom st a ws).length = ws.length := by
  induction ws generalizing a with
  | nil => rfl
  | cons w ws ih => simp [rowsFrom, ih]

/-- C59, the log: the k-th logged entry belongs to the k-th step of the integrator, which did not fail and is preceded by running
steps only; it has one row per layer with that layer's own position, angle and current at the time of the step. -/
theorem C59_rows (s : Walls ℝ) (steps : List (Step ℝ)) (k : ℕ) (t : ℝ) (rows : List (Row ℝ))
    (h : (s.runLoop steps)[k]? = some (t, rows)) :
    ∃ st, steps[k]? = some st ∧ t = st.t ∧ st.status ≠ .failed ∧
      (∀ j < k, ∃ p, steps[j]? = some p ∧ p.status = .running) ∧ rows.length = s.layers.length ∧
      ∀ (i : ℕ) (w : Wall ℝ), s.layers[i]? = some w → ∃ r, rows[i]? = some r ∧
        r.x = wallX st.y i ∧ r.phi = wallPhi st.y i ∧ r.je = w.je st.t ∧
        (w.relax ≠ .static → r.dw = wallWidth st.y i) := by
  induction steps generalizing k with
  | nil => simp [Walls.runLoop] at h
  | cons st rest ih =>
    have key : ∀ (i : ℕ) (w : Wall ℝ), s.layers[i]? = some w → ∃ r, (rowsFrom st 0 s.layers)[i]? = some r ∧
        r.x = wallX st.y i ∧ r.phi = wallPhi st.y i ∧ r.je = w.je st.t ∧
        (w.relax ≠ .static → r.dw = wallWidth st.y i) := by
      intro i w hw
      refine ⟨rowOf st i w, by rw [rowsFrom_get, hw]; simp, ?_, ?_, rfl, fun hs => ?_⟩
      · exact get_nat st.y (3 * i)
      · exact get_nat st.y (3 * i + 1)
      · simp only [rowOf, if_neg hs]; exact get_nat st.y (3 * i + 2)
    unfold Walls.runLoop at h
    cases hst : st.status with
    | failed => rw [hst] at h; simp at h
    | finished =>
      rw [hst] at h
      cases k with
      | zero =>
        simp only [List.getElem?_cons_zero, Option.some.injEq, Prod.mk.injEq] at h
        obtain ⟨rfl, rfl⟩ := h
        exact ⟨st, rfl, rfl, by rw [hst]; decide, by simp, rowsFrom_length _ _ _, key⟩
      | succ k => simp at h
    | running =>
      rw [hst] at h
      cases k with
      | zero =>
        simp only [List.getElem?_cons_zero, Option.some.injEq, Prod.mk.injEq] at h
        obtain ⟨rfl, rfl⟩ := h
        exact ⟨st, rfl, rfl, by rw [hst]; decide, by simp, rowsFrom_length _ _ _, key⟩
      | succ k =>
        simp only [List.getElem?_cons_succ] at h
        obtain ⟨q, h1, h2, h3, h4, h5⟩ := ih k h
        refine ⟨q, by simpa using h1, h2, h3, fun j hj => ?_, h5⟩
        cases j with
        | zero => exact ⟨st, rfl, hst⟩
        | succ j => simpa using h4 j (by omega)

/-- C59 for the first layer: the logged velocity is the displacement of the wall over the step divided by the step. For the second
layer the claim is false: see `C59_second_refuted`. -/
theorem C59_first_partial (st : Step ℝ) (w : Wall ℝ) : (rowOf st 0 w).v = stepVelocity st.y st.yOld st.t st.tOld 0 := by
  simp only [rowOf, stepVelocity, wallX, Step.size, Scalar.abs_real]
  simp [get]

/-- C59 fails for the second layer: the position is compared with the old *width of the first wall*, so the logged velocity is right
exactly when that width happens to equal the old position (or the step has no length). -/
theorem C59_second_refuted (st : Step ℝ) (w : Wall ℝ) :
    (rowOf st 1 w).v = (wallX st.y 1 - wallWidth st.yOld 0) / |st.t - st.tOld| ∧
    (st.t ≠ st.tOld → ((rowOf st 1 w).v = stepVelocity st.y st.yOld st.t st.tOld 1 ↔ wallWidth st.yOld 0 = wallX st.yOld 1)) := by
  have e : (rowOf st 1 w).v = (wallX st.y 1 - wallWidth st.yOld 0) / |st.t - st.tOld| := by
    simp only [rowOf, wallX, wallWidth, Step.size, Scalar.abs_real]
    simp [get]
  refine ⟨e, fun ht => ?_⟩
  have hp : |st.t - st.tOld| ≠ 0 := abs_ne_zero.2 (sub_ne_zero.2 ht)
  rw [e, stepVelocity, div_left_inj' hp]
  constructor <;> intro h <;> linarith

/-- A second wall that does not move, ten units away: the logged velocity is nine. -/
example (w : Wall ℝ) : (rowOf ⟨0, 1, [0, 0, 1, 10, 0, 1], [0, 0, 1, 10, 0, 1], .running⟩ 1 w).v = 9 ∧
    stepVelocity [0, 0, 1, 10, 0, 1] [0, 0, 1, 10, 0, 1] 1 0 1 = 0 := by
  constructor
  · rw [(C59_second_refuted _ w).1]; norm_num [wallX, wallWidth]
  · norm_num [stepVelocity, wallX]

/-! ### C75 -/

/-- More than two walls are refused. -/
theorem C75_two_walls (ws : List (Wall ℝ)) (J : ℝ) :
    (ws.length ≤ 2 → Walls.mk' ws J = .ok ⟨ws, J⟩) ∧ (2 < ws.length → Walls.mk' ws J = .error .valueError) :=
  ⟨fun h => by unfold Walls.mk'; rw [if_neg (by omega)], fun h => by unfold Walls.mk'; rw [if_pos h]⟩

/-- The right-hand side for one wall. -/
theorem rhs_one (w : Wall ℝ) (J t X φ Δ hk : ℝ) (hk' : w.Hk = some hk) :
    (Walls.mk [w] J).rhs t [X, φ, Δ] = .ok [(w.dynamics X φ Δ hk (w.je t) 0).1 / (1 + w.alpha ^ 2),
      (w.dynamics X φ Δ hk (w.je t) 0).2.1 / (1 + w.alpha ^ 2),
      if w.relax = .dynamic then (w.dynamics X φ Δ hk (w.je t) 0).2.2 else 0] := by
  simp only [Walls.rhs, Walls.rhsFrom, Walls.layerRhs, hk', bind, Except.bind, List.append_nil]
  simp [get]

/-- C75: in steady motion (the angle of a wall does not change) under a perpendicular field alone, the wall moves with the velocity
Q γ H Δ / α, whatever its angle, anisotropy, DMI and in-plane field. -/
theorem C75_walker (w : Wall ℝ) (J t X φ Δ dX dΔ : ℝ) (hα : w.alpha ≠ 0) (hje : w.je t = 0) (hr : w.Hr = 0)
    (hp : w.V0pin = 0) (he : w.V0edge = 0) (h : (Walls.mk [w] J).rhs t [X, φ, Δ] = .ok [dX, 0, dΔ]) :
    dX = w.Q * gyro * w.hz * Δ / w.alpha := by
  cases hk' : w.Hk with
  | none => simp [Walls.rhs, Walls.rhsFrom, Walls.layerRhs, hk', bind, Except.bind] at h
  | some hk =>
    rw [rhs_one w J t X φ Δ hk hk'] at h
    simp only [Except.ok.injEq, List.cons.injEq, and_true] at h
    obtain ⟨h1, h2, -⟩ := h
    have hb : ∀ Q : ℝ, gammaB X φ Q Δ (w.Hshe * w.je t) w.hz w.Hr w.beta (w.bj * w.je t) w.Ms w.Lx w.Ly w.Lz w.V0pin w.V0edge w.pinning
        = gyro * (Q * w.hz) := by
      intro Q
      simp [gammaB, pinningField, edgeField, hje, hr, hp, he]
    simp only [Wall.dynamics, hb] at h1 h2
    have hden : (1 + w.alpha ^ 2) ≠ 0 := by positivity
    generalize gammaA φ w.Q Δ hk w.hx w.hy (w.hdmi Δ) (w.bj * w.je t) 0 = ga at *
    rw [div_eq_zero_iff, or_iff_left hden] at h2
    have hga : ga = gyro * (w.Q * w.hz) / w.alpha := by
      field_simp
      linarith
    rw [← h1, hga]
    field_simp

/-- C75: the velocity of any steady motion, with all drives: the perpendicular, edge, pinning and spin Hall fields push the wall in the
direction Q, the Rashba field against it in proportion to β, and the spin transfer with β b_J j_e. -/
theorem C75_steady (w : Wall ℝ) (J t X φ Δ dX dΔ : ℝ) (hα : w.alpha ≠ 0) (hΔ : Δ ≠ 0)
    (h : (Walls.mk [w] J).rhs t [X, φ, Δ] = .ok [dX, 0, dΔ]) :
    w.alpha * dX = gyro * Δ * (w.Q * (w.hz + edgeField X w.Lx w.V0edge + pinningField X w.Ms w.pinning w.Ly w.Lz w.V0pin
        + Real.pi / 2 * (w.Hshe * w.je t) * Real.cos φ) - w.beta * (Real.pi / 2) * w.Hr * Real.cos φ)
      + w.beta * (w.bj * w.je t) := by
  cases hk' : w.Hk with
  | none => simp [Walls.rhs, Walls.rhsFrom, Walls.layerRhs, hk', bind, Except.bind] at h
  | some hk =>
    rw [rhs_one w J t X φ Δ hk hk'] at h
    simp only [Except.ok.injEq, List.cons.injEq, and_true] at h
    obtain ⟨h1, h2, -⟩ := h
    simp only [Wall.dynamics] at h1 h2
    have hden : (1 + w.alpha ^ 2) ≠ 0 := by positivity
    generalize gammaA φ w.Q Δ hk w.hx w.hy (w.hdmi Δ) (w.bj * w.je t) 0 = ga at *
    rw [div_eq_zero_iff, or_iff_left hden] at h2
    have hb : gammaB X φ w.Q Δ (w.Hshe * w.je t) w.hz w.Hr w.beta (w.bj * w.je t) w.Ms w.Lx w.Ly w.Lz w.V0pin w.V0edge w.pinning
        = w.alpha * ga := by linarith
    rw [hb] at h1
    have h3 : w.alpha * dX = Δ * (w.alpha * ga) := by
      rw [← h1]
      field_simp
    rw [h3, ← hb]
    simp only [gammaB, Scalar.cos_real, Scalar.pi_real, Scalar.ofNat_real]
    push_cast
    field_simp
    ring

/-- C75: a steady wall driven by the current alone moves with β/α times the spin-transfer velocity b_J j_e. -/
theorem C75_spin_transfer (w : Wall ℝ) (J t X φ Δ dX dΔ : ℝ) (hα : w.alpha ≠ 0) (hΔ : Δ ≠ 0) (hz : w.hz = 0) (hs : w.Hshe = 0)
    (hr : w.Hr = 0) (hp : w.V0pin = 0) (he : w.V0edge = 0) (h : (Walls.mk [w] J).rhs t [X, φ, Δ] = .ok [dX, 0, dΔ]) :
    dX = w.beta / w.alpha * (w.bj * w.je t) := by
  have h1 := C75_steady w J t X φ Δ dX dΔ hα hΔ h
  have h2 : edgeField X w.Lx w.V0edge = 0 := by simp [edgeField, he]
  have h3 : pinningField X w.Ms w.pinning w.Ly w.Lz w.V0pin = 0 := by simp [pinningField, hp]
  rw [h2, h3, hz, hs, hr] at h1
  rw [div_mul_eq_mul_div, eq_div_iff hα]
  linarith

/-- C75: without spin Hall and Rashba fields a current adds to the motion of any wall the velocity (1 + αβ)/(1 + α²) b_J j_e and the
rotation (β - α)/(1 + α²) b_J j_e / Δ. -/
theorem C75_current (w : Wall ℝ) (J t X φ Δ hk : ℝ) (hk' : w.Hk = some hk) (hΔ : Δ ≠ 0) (hs : w.Hshe = 0) (hr : w.Hr = 0) :
    ∃ a b c, (Walls.mk [{ w with je := fun _ => 0 }] J).rhs t [X, φ, Δ] = .ok [a, b, c] ∧ (Walls.mk [w] J).rhs t [X, φ, Δ] =
      .ok [a + (1 + w.alpha * w.beta) / (1 + w.alpha ^ 2) * (w.bj * w.je t),
        b + (w.beta - w.alpha) / (1 + w.alpha ^ 2) * (w.bj * w.je t) / Δ, c] := by
  refine ⟨_, _, _, rhs_one _ J t X φ Δ hk hk', ?_⟩
  have hα : 1 + w.alpha ^ 2 ≠ 0 := by positivity
  rw [rhs_one w J t X φ Δ hk hk']
  simp only [Wall.dynamics, gammaA, gammaB, Wall.hdmi, hs, hr, Except.ok.injEq, List.cons.injEq, and_true]
  simp only [Scalar.pi_real, Scalar.sin_real, Scalar.cos_real, Scalar.ofSci_real_true, Scalar.ofNat_real]
  refine ⟨?_, ?_⟩ <;> field_simp <;> ring

/-- C75: what the constructor computes: the spin-transfer constant ħ p / (2 mₑ Ms), the spin Hall field ħ θ / (2 μ₀ e Ms t), the width
√(A/Ku), and the anisotropy field of the chosen direction. -/
theorem C75_constructor (H : VectorObj ℝ) (alpha Ms th she D Ku Kp A beta p V0pin V0edge pin Lx Ly Lz Q Hr : ℝ)
    (mv : Moving) (r : Relax) (hMs : Ms ≠ 0) (ht : th ≠ 0) (hA : 0 ≤ A) (hK : 0 < Ku) :
    ∃ w, Wall.mk' H alpha Ms th she D Ku Kp A beta p V0pin V0edge pin Lx Ly Lz Q Hr mv r = .ok w ∧
      w.bj = hbar * p / (2 * 9.109e-31 * Ms) ∧
      w.Hshe = hbar * she / (2 * mu0 * (-1.602e-19) * Ms * th) ∧
      w.dw0 = √(A / Ku) ∧
      (mv = .perpendicular → w.Hk = some (2 * Ku / (mu0 * Ms))) ∧ (mv = .inplane → w.Hk = some (2 * Kp / (mu0 * Ms))) ∧
      w.hx = H.mag * Real.sin H.theta * Real.cos H.phi ∧ w.hy = H.mag * Real.sin H.theta * Real.sin H.phi ∧
      w.hz = H.mag * Real.cos H.theta ∧ (∀ t, w.je t = 0) ∧
      w.alpha = alpha ∧ w.Ms = Ms ∧ w.thickness = th ∧ w.D = D ∧ w.Ku = Ku ∧ w.Kp = Kp ∧ w.A = A ∧ w.beta = beta ∧
      w.V0pin = V0pin ∧ w.V0edge = V0edge ∧ w.pinning = pin ∧ w.Lx = Lx ∧ w.Ly = Ly ∧ w.Lz = Lz ∧ w.Q = Q ∧ w.Hr = Hr ∧ w.relax = r := by
  have he : (echarge : ℝ) ≠ 0 := by unfold echarge; simp only [Scalar.ofSci_real_true]; norm_num
  have hm := mu0_pos.ne'
  have hu : unrelaxedWidth A Ku = .ok √(A / Ku) := by
    unfold unrelaxedWidth
    simp only [Scalar.eqb_real, Scalar.ltb_real, Scalar.ofNat_real, Scalar.sqrt_real, Nat.cast_zero, decide_eq_true_eq]
    rw [if_neg hK.ne', if_neg (not_lt.2 (div_nonneg hA hK.le))]
  unfold Wall.mk'
  simp only [Scalar.eqb_real, Scalar.ofNat_real, Nat.cast_zero, decide_eq_true_eq, hu]
  rw [if_neg (mul_ne_zero he hMs), if_neg (by simp [hMs, hm, he, ht])]
  refine ⟨_, rfl, ?_, ?_, rfl, ?_, ?_, ?_, ?_, ?_, fun t => ?_, rfl, rfl, rfl, rfl, rfl, rfl, rfl, rfl, rfl, rfl, rfl, rfl, rfl, rfl,
    rfl, rfl, rfl⟩
  · unfold bohrMagneton
    simp only [Scalar.ofNat_real]
    field_simp
    push_cast
    ring
  · unfold echarge
    simp only [Scalar.ofSci_real_true]
    push_cast
    congr 1
    norm_num
    left; ring
  · rintro rfl; simp [anisotropyField]
  · rintro rfl; simp [anisotropyField]
  all_goals simp [VectorObj.getCartesian, VectorObj.fromSpherical]

/-- C75: without any drive a wall at a multiple of π (a Néel wall) is at rest, with any anisotropy and DMI; without DMI a Bloch wall
(half-integer multiple) is too. -/
theorem C75_rest (w : Wall ℝ) (J t X Δ : ℝ) (k : ℤ) (hk : ℝ) (hk' : w.Hk = some hk) (hje : w.je t = 0) (hr : w.Hr = 0)
    (hx : w.hx = 0) (hy : w.hy = 0) (hz : w.hz = 0) (hp : w.V0pin = 0) (he : w.V0edge = 0) (hd : w.relax ≠ .dynamic) :
    (Walls.mk [w] J).rhs t [X, k * Real.pi, Δ] = .ok [0, 0, 0] ∧
    (w.D = 0 → (Walls.mk [w] J).rhs t [X, k * Real.pi + Real.pi / 2, Δ] = .ok [0, 0, 0]) := by
  constructor
  · rw [rhs_one w J t _ _ Δ hk hk']
    have s2 : Real.sin (2 * (k * Real.pi)) = 0 := by
      rw [show (2 : ℝ) * (k * Real.pi) = ((2 * k : ℤ) : ℝ) * Real.pi by push_cast; ring]
      exact Real.sin_int_mul_pi _
    simp [Wall.dynamics, gammaA, gammaB, pinningField, edgeField, hje, hr, hx, hy, hz, hp, he, hd, Real.sin_int_mul_pi, s2]
  · intro hD
    rw [rhs_one w J t _ _ Δ hk hk']
    have s2 : Real.sin (2 * (k * Real.pi + Real.pi / 2)) = 0 := by
      rw [show (2 : ℝ) * (k * Real.pi + Real.pi / 2) = ((2 * k + 1 : ℤ) : ℝ) * Real.pi by push_cast; ring]
      exact Real.sin_int_mul_pi _
    simp [Wall.dynamics, Wall.hdmi, gammaA, gammaB, pinningField, edgeField, hje, hr, hx, hy, hz, hp, he, hd, hD, s2]

/-- C75: the width logged under static relaxation is the width at which exchange and anisotropy balance; it is also the only positive
width at which the dynamic equation is at rest, and the equation drives every other positive width towards it. -/
theorem C75_width (w : Wall ℝ) (st : Step ℝ) (i : ℕ) (X Δ hk je iec : ℝ) (hα : 0 < w.alpha) (hMs : 0 < w.Ms) (ht : 0 < w.thickness)
    (hA : 0 < w.A) (hKu : 0 < w.Ku) (hKp : 0 ≤ w.Kp) (hΔ : 0 < Δ) (hs : w.relax = .static) (h0 : unrelaxedWidth w.A w.Ku = .ok w.dw0) :
    let φ := wallPhi st.y i
    let b := balancedWidth w.A w.Ku w.Kp φ
    (rowOf st i w).dw = b ∧
    ((w.dynamics X φ Δ hk je iec).2.2 = 0 ↔ Δ = b) ∧
    (0 < (w.dynamics X φ Δ hk je iec).2.2 ↔ Δ < b) ∧
    ((w.dynamics X φ Δ hk je iec).2.2 < 0 ↔ b < Δ) := by
  intro φ b
  have hK : 0 < w.Ku + w.Kp * Real.sin φ ^ 2 := by positivity
  have hb : 0 < b := Real.sqrt_pos.2 (by positivity)
  have hbb : b ^ 2 * (w.Ku + w.Kp * Real.sin φ ^ 2) = w.A := by
    simp only [b, balancedWidth]
    rw [Real.sq_sqrt (by positivity)]
    field_simp
  have hdyn : (w.dynamics X φ Δ hk je iec).2.2 = gyro / (w.alpha * mu0 * w.Ms * w.thickness) *
      ((w.Ku + w.Kp * Real.sin φ ^ 2) * (b + Δ) / Δ) * (b - Δ) := by
    simp only [Wall.dynamics, Scalar.powi_real, Scalar.sin_real]
    rw [mul_assoc (gyro / _)]
    refine congrArg₂ _ rfl ?_
    rw [← hbb]
    field_simp
    ring
  have hc : 0 < gyro / (w.alpha * mu0 * w.Ms * w.thickness) * ((w.Ku + w.Kp * Real.sin φ ^ 2) * (b + Δ) / Δ) := by
    have := gyro_pos
    have := mu0_pos
    positivity
  refine ⟨?_, ?_, ?_, ?_⟩
  · have hw : w.dw0 = √(w.A / w.Ku) := by
      unfold unrelaxedWidth at h0
      simp only [Scalar.eqb_real, Scalar.ltb_real, Scalar.ofNat_real, Scalar.sqrt_real, decide_eq_true_eq] at h0
      rw [if_neg (by push_cast; exact hKu.ne'), if_neg (by push_cast; push Not; positivity)] at h0
      simpa using h0.symm
    have hphi : get st.y (3 * (i : ℤ) + 1) = φ := get_nat st.y (3 * i + 1)
    simp only [rowOf, if_pos hs, hphi, hw, Scalar.powi_real, Scalar.sin_real, Scalar.sqrt_real, b, balancedWidth, Scalar.ofNat_real]
    rw [← Real.sqrt_div (by positivity)]
    congr 1
    push_cast
    field_simp
  · rw [hdyn, mul_eq_zero, or_iff_right hc.ne', sub_eq_zero, eq_comm]
  · rw [hdyn, mul_pos_iff_of_pos_left hc, sub_pos]
  · rw [hdyn, mul_neg_iff, or_iff_left (by rintro ⟨h, -⟩; linarith), and_iff_right hc, sub_neg]

/-- What the coupling adds to the right-hand sides of the two walls. -/
noncomputable def couplingTorque (w : Wall ℝ) (J φ φ' : ℝ) : ℝ := 2 * J / (w.Ms * mu0 * w.thickness) * Real.sin (φ - φ')

/-- C75: the coupling of two walls is mutual. It changes the two velocities by amounts which, weighted with the magnetic moment
per area (saturation times thickness), damping factor and inverse width of each wall, are opposite; walls at equal angles do not feel
it. -/
theorem C75_coupling (w₁ w₂ : Wall ℝ) (J t : ℝ) (X₁ φ₁ Δ₁ X₂ φ₂ Δ₂ : ℝ) (a b : List ℝ)
    (hM₁ : w₁.Ms ≠ 0) (hM₂ : w₂.Ms ≠ 0) (ht₁ : w₁.thickness ≠ 0) (ht₂ : w₂.thickness ≠ 0) (hΔ₁ : Δ₁ ≠ 0) (hΔ₂ : Δ₂ ≠ 0)
    (ha : (Walls.mk [w₁, w₂] J).rhs t [X₁, φ₁, Δ₁, X₂, φ₂, Δ₂] = .ok a)
    (hb : (Walls.mk [w₁, w₂] 0).rhs t [X₁, φ₁, Δ₁, X₂, φ₂, Δ₂] = .ok b) :
    (a.getD 0 0 - b.getD 0 0) * (w₁.Ms * w₁.thickness * (1 + w₁.alpha ^ 2) / Δ₁) +
      (a.getD 3 0 - b.getD 3 0) * (w₂.Ms * w₂.thickness * (1 + w₂.alpha ^ 2) / Δ₂) = 0 ∧
    (a.getD 0 0 - b.getD 0 0) * (w₁.Ms * w₁.thickness * (1 + w₁.alpha ^ 2) / Δ₁) = 2 * J * gyro / mu0 * Real.sin (φ₁ - φ₂) ∧
    (Real.sin (φ₁ - φ₂) = 0 → a = b) := by
  have hmu := (mu0_pos).ne'
  have hd₁ : (1 + w₁.alpha ^ 2) ≠ 0 := by positivity
  have hd₂ : (1 + w₂.alpha ^ 2) ≠ 0 := by positivity
  have hs : Real.sin (φ₂ - φ₁) = -Real.sin (φ₁ - φ₂) := by rw [← Real.sin_neg]; congr 1; ring
  cases h1 : w₁.Hk with
  | none => simp [Walls.rhs, Walls.rhsFrom, Walls.layerRhs, h1, bind, Except.bind] at ha
  | some k₁ =>
    cases h2 : w₂.Hk with
    | none => simp [Walls.rhs, Walls.rhsFrom, Walls.layerRhs, h1, h2, bind, Except.bind] at ha
    | some k₂ =>
      have e : ∀ J' : ℝ, (Walls.mk [w₁, w₂] J').rhs t [X₁, φ₁, Δ₁, X₂, φ₂, Δ₂] = .ok
          ([(w₁.dynamics X₁ φ₁ Δ₁ k₁ (w₁.je t) (couplingTorque w₁ J' φ₁ φ₂)).1 / (1 + w₁.alpha ^ 2),
            (w₁.dynamics X₁ φ₁ Δ₁ k₁ (w₁.je t) (couplingTorque w₁ J' φ₁ φ₂)).2.1 / (1 + w₁.alpha ^ 2),
            if w₁.relax = .dynamic then (w₁.dynamics X₁ φ₁ Δ₁ k₁ (w₁.je t) (couplingTorque w₁ J' φ₁ φ₂)).2.2 else 0,
            (w₂.dynamics X₂ φ₂ Δ₂ k₂ (w₂.je t) (couplingTorque w₂ J' φ₂ φ₁)).1 / (1 + w₂.alpha ^ 2),
            (w₂.dynamics X₂ φ₂ Δ₂ k₂ (w₂.je t) (couplingTorque w₂ J' φ₂ φ₁)).2.1 / (1 + w₂.alpha ^ 2),
            if w₂.relax = .dynamic then (w₂.dynamics X₂ φ₂ Δ₂ k₂ (w₂.je t) (couplingTorque w₂ J' φ₂ φ₁)).2.2 else 0]) := by
        intro J'
        simp only [Walls.rhs, Walls.rhsFrom, Walls.layerRhs, h1, h2, bind, Except.bind, List.append_nil]
        simp [get, couplingTorque]
      rw [e J] at ha
      rw [e 0] at hb
      simp only [Except.ok.injEq] at ha hb
      have z₁ : couplingTorque w₁ 0 φ₁ φ₂ = 0 := by simp [couplingTorque]
      have z₂ : couplingTorque w₂ 0 φ₂ φ₁ = 0 := by simp [couplingTorque]
      have g : ∀ (φ Q Δ hk hx hy hd bj c : ℝ), gammaA φ Q Δ hk hx hy hd bj c = gammaA φ Q Δ hk hx hy hd bj 0 + gyro * c := by
        intros
        simp only [gammaA]
        simp
        ring
      have d : ∀ (w : Wall ℝ) (X φ Δ k je c : ℝ), (w.dynamics X φ Δ k je c).1 = (w.dynamics X φ Δ k je 0).1 + Δ * gyro * c := by
        intros w X φ Δ k je c
        simp only [Wall.dynamics]
        rw [g φ w.Q Δ k w.hx w.hy (w.hdmi Δ) (w.bj * je) c]
        ring
      have f₁ : (a.getD 0 0 - b.getD 0 0) * (w₁.Ms * w₁.thickness * (1 + w₁.alpha ^ 2) / Δ₁)
          = 2 * J * gyro / mu0 * Real.sin (φ₁ - φ₂) := by
        rw [← ha, ← hb]
        simp only [List.getD_cons_zero, z₁]
        rw [d w₁ X₁ φ₁ Δ₁ k₁ (w₁.je t) (couplingTorque w₁ J φ₁ φ₂)]
        unfold couplingTorque
        field_simp
        ring
      have f₂ : (a.getD 3 0 - b.getD 3 0) * (w₂.Ms * w₂.thickness * (1 + w₂.alpha ^ 2) / Δ₂)
          = 2 * J * gyro / mu0 * Real.sin (φ₂ - φ₁) := by
        rw [← ha, ← hb]
        simp only [List.getD_cons_zero, List.getD_cons_succ, z₂]
        rw [d w₂ X₂ φ₂ Δ₂ k₂ (w₂.je t) (couplingTorque w₂ J φ₂ φ₁)]
        unfold couplingTorque
        field_simp
        ring
      refine ⟨by rw [f₁, f₂, hs]; ring, f₁, fun h0 => ?_⟩
      rw [← ha, ← hb, z₁, z₂]
      have y₁ : couplingTorque w₁ J φ₁ φ₂ = 0 := by simp [couplingTorque, h0]
      have y₂ : couplingTorque w₂ J φ₂ φ₁ = 0 := by simp [couplingTorque, hs, h0]
      rw [y₁, y₂]

/-- C75: `get_field_contribution` is what the field and the pinning add to the equations of a wall with `Q = 1`. -/
theorem C75_contribution (w : Wall ℝ) (hQ : w.Q = 1) (X φ Δ hk je iec : ℝ) :
    let d := w.dynamics X φ Δ hk je iec
    let e := { w with hx := 0, hy := 0, hz := 0, V0pin := 0 }.dynamics X φ Δ hk je iec
    (d.1 - e.1, d.2.1 - e.2.1) = fieldContribution X φ w.hx w.hy w.hz w.alpha Δ w.Ms w.V0pin w.pinning w.Ly w.Lz := by
  have hp : pinningField X w.Ms w.pinning w.Ly w.Lz 0 = 0 := by simp [pinningField]
  simp only [Wall.dynamics, gammaA, gammaB, fieldContribution, Wall.hdmi, hQ, hp, Prod.mk.injEq]
  simp only [Scalar.pi_real, Scalar.sin_real, Scalar.cos_real, Scalar.ofSci_real_true, Scalar.ofNat_real]
  push_cast
  norm_num
  constructor <;> ring

/-! ### C76 -/

/-- C76 for the edge field: it is minus the slope of a potential that grows as the sixth power of cosh from the middle of the
strip. -/
theorem C76_edge (X L V0 : ℝ) : HasDerivAt (edgePotential V0 L) (-edgeField X L V0) X := by
  unfold edgePotential
  have h1 : HasDerivAt (fun X : ℝ => (X - L / 2) / (L / 2)) (1 / (L / 2)) X :=
    ((hasDerivAt_id X).sub_const _).div_const _
  have h2 := ((h1.cosh).pow 6).const_mul V0
  refine h2.congr_deriv ?_
  simp only [edgeField, Scalar.sinh_real, Scalar.cosh_real, Scalar.powi_real]
  simp
  ring

/-- C76 is false for the pinning field: the inner derivative π/p lost its period. The field of the code is the period times the
field of the documented potential (3·10⁻⁸ of it for the default period of 30 nm). -/
theorem C76_pinning_refuted (X Ms p Ly Lz V0 : ℝ) (hp : p ≠ 0) :
    ∃ slope, HasDerivAt (pinPotential V0 p) slope X ∧
      pinningField X Ms p Ly Lz V0 = p * (-(1 / (2 * mu0 * Ms * Ly * Lz)) * slope) := by
  have h1 : HasDerivAt (fun X : ℝ => Real.pi * X / p) (Real.pi * 1 / p) X := ((hasDerivAt_id X).const_mul _).div_const _
  have h2 := ((h1.sin).pow 2).const_mul V0
  refine ⟨_, h2, ?_⟩
  simp only [pinningField, Scalar.sin_real, Scalar.cos_real, Scalar.pi_real, Scalar.ofSci_real_true]
  simp only [Scalar.ofNat_real]
  push_cast
  rw [show X * Real.pi / p = Real.pi * X / p by ring]
  norm_num
  field_simp

/-- C76: the pinning field repeats with the period and vanishes at every multiple of half of it. -/
theorem C76_period (X Ms p Ly Lz V0 : ℝ) (hp : p ≠ 0) (k : ℤ) :
    pinningField (X + p) Ms p Ly Lz V0 = pinningField X Ms p Ly Lz V0 ∧ pinningField (k * (p / 2)) Ms p Ly Lz V0 = 0 := by
  simp only [pinningField, Scalar.sin_real, Scalar.cos_real, Scalar.pi_real, Scalar.ofNat_real, Scalar.ofSci_real_true]
  push_cast
  constructor
  · have : (X + p) * Real.pi / p = X * Real.pi / p + Real.pi := by field_simp
    rw [this, Real.sin_add_pi, Real.cos_add_pi]
    ring
  · have h : k * (p / 2) * Real.pi / p = k * Real.pi / 2 := by field_simp
    rw [h]
    have h2 : Real.sin (k * Real.pi / 2) * Real.cos (k * Real.pi / 2) = 0 := by
      have := Real.sin_two_mul (k * Real.pi / 2)
      rw [show 2 * (k * Real.pi / 2) = k * Real.pi by ring, Real.sin_int_mul_pi] at this
      linarith
    rw [mul_assoc (_ * _ * V0), h2]
    ring

/-! ### Cases that meet the hypotheses -/

/-- A wall with a perpendicular field of 100 A/m; damping 1/2. -/
noncomputable def wall : Wall ℝ :=
  { hx := 0, hy := 0, hz := 100, alpha := 1 / 2, Ms := 1, thickness := 1, D := 0, Ku := 4, Kp := 0, A := 1, beta := 1, V0pin := 0,
    V0edge := 0, pinning := 1, Lx := 1, Ly := 1, Lz := 1, Q := 1, Hr := 0, relax := .static, bj := 0, Hshe := 0, dw0 := 1 / 2,
    Hk := some (-400), je := fun _ => 0 }

/-- `C75_current` for the damping 1/2 and β = 1: the current turns the wall. -/
example (J X φ : ℝ) : ∃ a b c, (Walls.mk [wall] J).rhs 0 [X, φ, 2] = .ok [a, b, c] ∧
    (Walls.mk [{ wall with bj := 5, je := fun _ => 1 }] J).rhs 0 [X, φ, 2] = .ok [a + 6, b + 1, c] := by
  obtain ⟨a, b, c, h1, h2⟩ := C75_current { wall with bj := 5, je := fun _ => 1 } J 0 X φ 2 (-400) rfl two_ne_zero rfl rfl
  refine ⟨a, b, c, ?_, ?_⟩
  · rw [← h1, rhs_one _ J 0 X φ 2 (-400) rfl, rhs_one _ J 0 X φ 2 (-400) rfl]
    simp [Wall.dynamics, wall, Wall.hdmi]
  · rw [h2]
    norm_num [wall]

/-- The steady state of `C75_walker` exists: at 45 degrees the torque of the anisotropy field balances the field. -/
example (J X : ℝ) : ∃ dX, (Walls.mk [wall] J).rhs 0 [X, Real.pi / 4, 1] = .ok [dX, 0, 0] ∧ dX = 200 * gyro := by
  have h : (Walls.mk [wall] J).rhs 0 [X, Real.pi / 4, 1] = .ok [200 * gyro, 0, 0] := by
    rw [rhs_one wall J 0 _ _ 1 (-400) rfl]
    have : (2 : ℝ) * (Real.pi / 4) = Real.pi / 2 := by ring
    simp [Wall.dynamics, gammaA, gammaB, pinningField, edgeField, wall, this, Wall.hdmi]
    constructor
    · ring
    · left; ring
  refine ⟨_, h, ?_⟩
  rfl

/-- A Néel wall with α = β carried by the current alone: steady, with the spin-transfer velocity. -/
example (J X : ℝ) : (Walls.mk [{ wall with hz := 0, alpha := 1, bj := 2, je := fun _ => 3 }] J).rhs 0 [X, 0, 1] = .ok [6, 0, 0] := by
  rw [rhs_one _ J 0 _ _ 1 (-400) rfl]
  simp [Wall.dynamics, gammaA, gammaB, pinningField, edgeField, wall, Wall.hdmi]
  norm_num

example : unrelaxedWidth wall.A wall.Ku = .ok wall.dw0 := by
  have h : √(1 / 4 : ℝ) = 1 / 2 := by
    rw [show (1 / 4 : ℝ) = (1 / 2) ^ 2 by norm_num, Real.sqrt_sq (by norm_num)]
  unfold unrelaxedWidth wall
  simp only [Scalar.eqb_real, Scalar.ltb_real, Scalar.ofNat_real, Scalar.sqrt_real, h]
  rw [if_neg (by norm_num), if_neg (by norm_num)]

end Domain
