import Verif.Props.PyDomain
import Mathlib.Analysis.Calculus.Deriv.MeanValue
import Mathlib.Analysis.ODE.ExistUnique
import Mathlib.Topology.Order.MonotoneConvergence

set_option linter.unusedSectionVars false

/-!
# C129, C130: what domain walls do over time

C129: walls without currents lose energy. C130: the Walker field separates walls that settle into a steady motion from walls whose
angle turns forever.

The integrator (scipy's RK45) is not modelled; the statements are about the exact solutions of the equations that
`multilayer_dw_llg` hands to it.
-/

namespace Spec
open Domain

/-- One wall moves by the equations at the time `t`. -/
def MovesAt (w : Wall ℝ) (J : ℝ) (X φ Δ : ℝ → ℝ) (t : ℝ) : Prop :=
  ∃ a b c, (Walls.mk [w] J).rhs t [X t, φ t, Δ t] = .ok [a, b, c] ∧ HasDerivAt X a t ∧ HasDerivAt φ b t ∧ HasDerivAt Δ c t

/-- The path of one wall follows the equations. -/
def WallPath (w : Wall ℝ) (J : ℝ) (X φ Δ : ℝ → ℝ) : Prop := ∀ t, MovesAt w J X φ Δ t

/-- The paths of two walls follow the equations. -/
def WallPaths (v w : Wall ℝ) (J : ℝ) (X φ Δ Y ψ Γ : ℝ → ℝ) : Prop :=
  ∀ t, ∃ a b c d e f, (Walls.mk [v, w] J).rhs t [X t, φ t, Δ t, Y t, ψ t, Γ t] = .ok [a, b, c, d, e, f] ∧
    HasDerivAt X a t ∧ HasDerivAt φ b t ∧ HasDerivAt Δ c t ∧ HasDerivAt Y d t ∧ HasDerivAt ψ e t ∧ HasDerivAt Γ f t

/-- The energy of a wall divided by `2 μ0 Ms`, its width and its cross-section: anisotropy `hk`, field in the plane, DMI, and the
perpendicular field, the edges and the pinning (with the weight `C76_pinning_refuted` finds), which push the wall along `Q`. -/
noncomputable def wallEnergy (w : Wall ℝ) (hk Δ X φ : ℝ) : ℝ :=
  hk / 4 * Real.cos (2 * φ) - Real.pi / 2 * (w.hx * Real.cos φ + w.hy * Real.sin φ)
    - w.Q * (Real.pi / 2) * (w.D / (mu0 * w.Ms * Δ)) * Real.cos φ
    - w.Q / Δ * (w.hz * X - edgePotential w.V0edge w.Lx X - w.pinning / (2 * mu0 * w.Ms * w.Ly * w.Lz) * pinPotential w.V0pin w.pinning X)

/-- The energy of two walls, weighted with their moments per area, and of their coupling. -/
noncomputable def pairEnergy (v w : Wall ℝ) (J hk hl Δ Γ X φ Y ψ : ℝ) : ℝ :=
  v.Ms * v.thickness * wallEnergy v hk Δ X φ + w.Ms * w.thickness * wallEnergy w hl Γ Y ψ - 2 * J / mu0 * Real.cos (φ - ψ)

/-- No current, no Rashba field, damping, a width that is not relaxed dynamically. -/
structure LeftAlone (w : Wall ℝ) : Prop where
  current : ∀ t, w.je t = 0
  rashba : w.Hr = 0
  damping : 0 < w.alpha
  static : w.relax ≠ .dynamic
  period : w.pinning ≠ 0

end Spec

open Spec

namespace Domain

/-- The slopes of the energy of one wall. -/
theorem energy_slopes (w : Wall ℝ) (hp : w.pinning ≠ 0) (hk Δ X φ : ℝ) :
    HasDerivAt (fun ψ => wallEnergy w hk Δ X ψ) (gammaA φ w.Q Δ hk w.hx w.hy (w.hdmi Δ) 0 0 / gyro) φ ∧
    HasDerivAt (fun Y => wallEnergy w hk Δ Y φ)
      (-(w.Q / Δ * (w.hz + edgeField X w.Lx w.V0edge + pinningField X w.Ms w.pinning w.Ly w.Lz w.V0pin))) X := by
  have hg := gyro_pos.ne'
  constructor
  · have h2 : HasDerivAt (fun ψ : ℝ => 2 * ψ) 2 φ := by simpa using (hasDerivAt_id φ).const_mul (2 : ℝ)
    have h := ((((h2.cos).const_mul (hk / 4)).sub ((((Real.hasDerivAt_cos φ).const_mul w.hx).add
      ((Real.hasDerivAt_sin φ).const_mul w.hy)).const_mul (Real.pi / 2))).sub
      ((Real.hasDerivAt_cos φ).const_mul (w.Q * (Real.pi / 2) * (w.D / (mu0 * w.Ms * Δ))))).sub_const
      (w.Q / Δ * (w.hz * X - edgePotential w.V0edge w.Lx X -
        w.pinning / (2 * mu0 * w.Ms * w.Ly * w.Lz) * pinPotential w.V0pin w.pinning X))
    refine h.congr_deriv ?_
    simp only [gammaA, Wall.hdmi, Scalar.sin_real, Scalar.cos_real, Scalar.pi_real]
    simp only [Scalar.ofNat_real, Scalar.ofSci_real_true]
    push_cast
    rw [eq_div_iff hg]
    norm_num
    ring
  · obtain ⟨s, hs, e⟩ := C76_pinning_refuted X w.Ms w.pinning w.Ly w.Lz w.V0pin hp
    have h := (((((hasDerivAt_id X).const_mul w.hz).sub (C76_edge X w.Lx w.V0edge)).sub
      (hs.const_mul (w.pinning / (2 * mu0 * w.Ms * w.Ly * w.Lz)))).const_mul (w.Q / Δ)).const_sub
      (hk / 4 * Real.cos (2 * φ) - Real.pi / 2 * (w.hx * Real.cos φ + w.hy * Real.sin φ)
        - w.Q * (Real.pi / 2) * (w.D / (mu0 * w.Ms * Δ)) * Real.cos φ)
    refine h.congr_deriv ?_
    rw [e]
    ring

theorem energy_split (w : Wall ℝ) (hk Δ X Y φ ψ : ℝ) :
    wallEnergy w hk Δ X φ = wallEnergy w hk Δ Y φ + wallEnergy w hk Δ X ψ - wallEnergy w hk Δ Y ψ := by
  unfold wallEnergy; ring

/-- The energy of one wall along a path. -/
theorem energy_along (w : Wall ℝ) (hk Δ : ℝ) {X φ : ℝ → ℝ} {x p t a b : ℝ} (hX : HasDerivAt X x t) (hφ : HasDerivAt φ p t)
    (ha : HasDerivAt (fun ψ => wallEnergy w hk Δ (X t) ψ) a (φ t)) (hb : HasDerivAt (fun Y => wallEnergy w hk Δ Y (φ t)) b (X t)) :
    HasDerivAt (fun s => wallEnergy w hk Δ (X s) (φ s)) (a * p + b * x) t := by
  have h := ((ha.comp t hφ).add (hb.comp t hX)).sub_const (wallEnergy w hk Δ (X t) (φ t))
  refine h.congr_of_eventuallyEq (Filter.Eventually.of_forall fun s => ?_)
  exact energy_split w hk Δ (X s) (X t) (φ s) (φ t)

/-- The equations of a wall that is left alone, by the slopes of its energy; `c` is the torque of a neighbour. -/
theorem dynamics_alone {w : Wall ℝ} (hw : LeftAlone w) (hk X φ c t : ℝ) {Δ : ℝ} (hΔ : Δ ≠ 0) :
    ∃ a b, HasDerivAt (fun ψ => wallEnergy w hk Δ X ψ) a φ ∧ HasDerivAt (fun Y => wallEnergy w hk Δ Y φ) b X ∧
      (w.dynamics X φ Δ hk (w.je t) c).1 = Δ * (gyro * (a + c) - w.alpha * (gyro * (Δ * b))) ∧
      (w.dynamics X φ Δ hk (w.je t) c).2.1 = -w.alpha * (gyro * (a + c)) - gyro * (Δ * b) := by
  obtain ⟨h1, h2⟩ := energy_slopes w hw.period hk Δ X φ
  refine ⟨_, _, h1, h2, ?_⟩
  have hg := gyro_pos.ne'
  have ea : gammaA φ w.Q Δ hk w.hx w.hy (w.hdmi Δ) (w.bj * w.je t) c = gyro * (gammaA φ w.Q Δ hk w.hx w.hy (w.hdmi Δ) 0 0 / gyro + c) := by
    rw [mul_add, mul_div_cancel₀ _ hg, hw.current]
    simp only [gammaA]
    simp
    ring
  have eb : gammaB X φ w.Q Δ (w.Hshe * w.je t) w.hz w.Hr w.beta (w.bj * w.je t) w.Ms w.Lx w.Ly w.Lz w.V0pin w.V0edge w.pinning =
      -(gyro * (Δ * -(w.Q / Δ * (w.hz + edgeField X w.Lx w.V0edge + pinningField X w.Ms w.pinning w.Ly w.Lz w.V0pin)))) := by
    simp only [gammaB, hw.current, hw.rashba]
    simp
    field_simp
    left
    ring
  constructor
  · simp only [Wall.dynamics]
    rw [ea, eb]
    ring
  · simp only [Wall.dynamics]
    rw [ea, eb]
    ring

/-- A function whose slope is 0 everywhere is constant. -/
theorem constant {f : ℝ → ℝ} (h : ∀ t, HasDerivAt f 0 t) (t : ℝ) : f t = f 0 :=
  is_const_of_deriv_eq_zero (fun t => (h t).differentiableAt) (fun t => (h t).deriv) t 0

theorem width_constant {w : Wall ℝ} (hw : LeftAlone w) {J : ℝ} {X φ Δ : ℝ → ℝ} (hp : WallPath w J X φ Δ) (t : ℝ) : Δ t = Δ 0 := by
  refine constant (fun t => ?_) t
  obtain ⟨a, b, c, h, -, -, hc⟩ := hp t
  cases hk' : w.Hk with
  | none => simp [Walls.rhs, Walls.rhsFrom, Walls.layerRhs, hk', bind, Except.bind] at h
  | some hk =>
    rw [rhs_one w J t _ _ _ hk hk', if_neg hw.static] at h
    simp only [Except.ok.injEq, List.cons.injEq, and_true] at h
    rw [h.2.2]
    exact hc

/-- C129: the energy of a wall without currents falls at the rate given by its slopes and the damping. -/
theorem C129_rate {w : Wall ℝ} (hw : LeftAlone w) {J hk : ℝ} (hk' : w.Hk = some hk) {X φ Δ : ℝ → ℝ} (hp : WallPath w J X φ Δ)
    (hΔ : Δ 0 ≠ 0) (t : ℝ) : Δ t = Δ 0 ∧
    ∃ a b, HasDerivAt (fun ψ => wallEnergy w hk (Δ 0) (X t) ψ) a (φ t) ∧ HasDerivAt (fun Y => wallEnergy w hk (Δ 0) Y (φ t)) b (X t) ∧
      HasDerivAt (fun s => wallEnergy w hk (Δ 0) (X s) (φ s)) (-(221100 * w.alpha / (1 + w.alpha ^ 2) * (a ^ 2 + (Δ 0 * b) ^ 2))) t := by
  have hc := width_constant hw hp t
  refine ⟨hc, ?_⟩
  obtain ⟨x, p, d, h, hX, hφ, -⟩ := hp t
  obtain ⟨a, b, ha, hb, e1, e2⟩ := dynamics_alone hw hk (X t) (φ t) 0 t hΔ
  rw [rhs_one w J t _ _ _ hk hk', hc] at h
  simp only [Except.ok.injEq, List.cons.injEq, and_true] at h
  obtain ⟨h1, h2, -⟩ := h
  refine ⟨a, b, ha, hb, (energy_along w hk (Δ 0) hX hφ ha hb).congr_deriv ?_⟩
  have hd : 1 + w.alpha ^ 2 ≠ 0 := by positivity
  rw [← h1, ← h2, e1, e2, show (gyro : ℝ) = 221100 by norm_num [gyro]]
  field_simp
  ring

/-- C129: the energy of a wall without currents never rises. -/
theorem C129_decreases {w : Wall ℝ} (hw : LeftAlone w) {J hk : ℝ} (hk' : w.Hk = some hk) {X φ Δ : ℝ → ℝ} (hp : WallPath w J X φ Δ)
    (hΔ : Δ 0 ≠ 0) : Antitone fun t => wallEnergy w hk (Δ t) (X t) (φ t) := by
  have hc := fun t => (C129_rate hw hk' hp hΔ t).1
  simp only [hc]
  have hd := hw.damping
  refine antitone_of_deriv_nonpos (fun t => ?_) fun t => ?_
  · obtain ⟨-, a, b, -, -, h⟩ := C129_rate hw hk' hp hΔ t
    exact h.differentiableAt
  · obtain ⟨-, a, b, -, -, h⟩ := C129_rate hw hk' hp hΔ t
    rw [h.deriv]
    simp only [Left.neg_nonpos_iff]
    positivity

/-- C129: the energy stands still exactly where the wall does. -/
theorem C129_rest {w : Wall ℝ} (hw : LeftAlone w) {J hk : ℝ} (hk' : w.Hk = some hk) {X φ Δ : ℝ → ℝ} (hp : WallPath w J X φ Δ)
    (hΔ : Δ 0 ≠ 0) (t : ℝ) : HasDerivAt (fun s => wallEnergy w hk (Δ s) (X s) (φ s)) 0 t ↔
      (Walls.mk [w] J).rhs t [X t, φ t, Δ t] = .ok [0, 0, 0] := by
  have hc := fun t => (C129_rate hw hk' hp hΔ t).1
  simp only [hc]
  obtain ⟨-, a, b, ha, hb, h⟩ := C129_rate hw hk' hp hΔ t
  obtain ⟨a', b', ha', hb', e1, e2⟩ := dynamics_alone hw hk (X t) (φ t) 0 t hΔ
  obtain rfl := ha.unique ha'
  obtain rfl := hb.unique hb'
  have hd := hw.damping
  have hk0 : 0 < 1 + w.alpha ^ 2 := by positivity
  have hg := gyro_pos
  rw [rhs_one w J t _ _ _ hk hk', if_neg hw.static, e1, e2]
  simp only [Except.ok.injEq, List.cons.injEq, and_true, div_eq_zero_iff, hk0.ne', or_false, mul_eq_zero, hΔ, false_or]
  constructor
  · intro h0
    have := h.unique h0
    have hz : a ^ 2 + (Δ 0 * b) ^ 2 = 0 := by
      have : 221100 * w.alpha / (1 + w.alpha ^ 2) * (a ^ 2 + (Δ 0 * b) ^ 2) = 0 := by linarith
      rcases mul_eq_zero.1 this with h | h
      · exact absurd h (by positivity)
      · exact h
    have h1 : a = 0 := by nlinarith [sq_nonneg a, sq_nonneg (Δ 0 * b)]
    have h2 : Δ 0 * b = 0 := by nlinarith [sq_nonneg a, sq_nonneg (Δ 0 * b)]
    rw [h1, h2]
    simp
  · rintro ⟨h1, h2⟩
    have hu : a - w.alpha * (Δ 0 * b) = 0 := by
      have : gyro * (a - w.alpha * (Δ 0 * b)) = 0 := by linarith
      exact (mul_eq_zero.1 this).resolve_left hg.ne'
    have hv : w.alpha * a + Δ 0 * b = 0 := by
      have : gyro * (w.alpha * a + Δ 0 * b) = 0 := by linarith
      exact (mul_eq_zero.1 this).resolve_left hg.ne'
    have hz : a = 0 := by
      have : (1 + w.alpha ^ 2) * a = 0 := by nlinarith
      exact (mul_eq_zero.1 this).resolve_left hk0.ne'
    have hy : Δ 0 * b = 0 := by rw [hz] at hv; linarith
    rw [hz, hy] at h
    simpa using h

/-- The right-hand side for two walls. -/
theorem rhs_two (v w : Wall ℝ) (J t X φ Δ Y ψ Γ : ℝ) {hk hl : ℝ} (hv : v.Hk = some hk) (hw : w.Hk = some hl) :
    (Walls.mk [v, w] J).rhs t [X, φ, Δ, Y, ψ, Γ] = .ok
      [(v.dynamics X φ Δ hk (v.je t) (couplingTorque v J φ ψ)).1 / (1 + v.alpha ^ 2),
        (v.dynamics X φ Δ hk (v.je t) (couplingTorque v J φ ψ)).2.1 / (1 + v.alpha ^ 2),
        if v.relax = .dynamic then (v.dynamics X φ Δ hk (v.je t) (couplingTorque v J φ ψ)).2.2 else 0,
        (w.dynamics Y ψ Γ hl (w.je t) (couplingTorque w J ψ φ)).1 / (1 + w.alpha ^ 2),
        (w.dynamics Y ψ Γ hl (w.je t) (couplingTorque w J ψ φ)).2.1 / (1 + w.alpha ^ 2),
        if w.relax = .dynamic then (w.dynamics Y ψ Γ hl (w.je t) (couplingTorque w J ψ φ)).2.2 else 0] := by
  simp only [Walls.rhs, Walls.rhsFrom, Walls.layerRhs, hv, hw, bind, Except.bind, List.append_nil]
  simp [get, couplingTorque]

theorem rate_algebra (al D S a b : ℝ) {M : ℝ} (hM : M ≠ 0) :
    M * (a * ((-al * (221100 * (a + S / M)) - 221100 * (D * b)) / (1 + al ^ 2)) +
        b * ((D * (221100 * (a + S / M) - al * (221100 * (D * b)))) / (1 + al ^ 2))) +
      S * ((-al * (221100 * (a + S / M)) - 221100 * (D * b)) / (1 + al ^ 2)) =
    -(221100 * al / ((1 + al ^ 2) * M) * ((M * a + S) ^ 2 + (D * (M * b)) ^ 2)) := by
  have hd : 1 + al ^ 2 ≠ 0 := by positivity
  field_simp
  ring

/-- C129: two coupled walls without currents dissipate their common energy, each at the rate of its own slopes. -/
theorem C129_pair {v w : Wall ℝ} (av : LeftAlone v) (aw : LeftAlone w) {J hk hl : ℝ} (hv : v.Hk = some hk) (hw : w.Hk = some hl)
    (mv : v.Ms * v.thickness ≠ 0) (mw : w.Ms * w.thickness ≠ 0) {X φ Δ Y ψ Γ : ℝ → ℝ} (hp : WallPaths v w J X φ Δ Y ψ Γ)
    (hΔ : Δ 0 ≠ 0) (hΓ : Γ 0 ≠ 0) (t : ℝ) : Δ t = Δ 0 ∧ Γ t = Γ 0 ∧ ∃ a b c d,
      HasDerivAt (fun θ => pairEnergy v w J hk hl (Δ 0) (Γ 0) (X t) θ (Y t) (ψ t)) a (φ t) ∧
      HasDerivAt (fun x => pairEnergy v w J hk hl (Δ 0) (Γ 0) x (φ t) (Y t) (ψ t)) b (X t) ∧
      HasDerivAt (fun θ => pairEnergy v w J hk hl (Δ 0) (Γ 0) (X t) (φ t) (Y t) θ) c (ψ t) ∧
      HasDerivAt (fun y => pairEnergy v w J hk hl (Δ 0) (Γ 0) (X t) (φ t) y (ψ t)) d (Y t) ∧
      HasDerivAt (fun s => pairEnergy v w J hk hl (Δ 0) (Γ 0) (X s) (φ s) (Y s) (ψ s))
        (-(221100 * v.alpha / ((1 + v.alpha ^ 2) * (v.Ms * v.thickness)) * (a ^ 2 + (Δ 0 * b) ^ 2)) -
          221100 * w.alpha / ((1 + w.alpha ^ 2) * (w.Ms * w.thickness)) * (c ^ 2 + (Γ 0 * d) ^ 2)) t := by
  have hw1 : ∀ t, HasDerivAt Δ 0 t ∧ HasDerivAt Γ 0 t := by
    intro t
    obtain ⟨_, _, _, _, _, _, h, -, -, h3, -, -, h6⟩ := hp t
    rw [rhs_two v w J t _ _ _ _ _ _ hv hw, if_neg av.static, if_neg aw.static] at h
    simp only [Except.ok.injEq, List.cons.injEq, and_true] at h
    obtain ⟨-, -, e3, -, -, e6⟩ := h
    rw [← e3] at h3
    rw [← e6] at h6
    exact ⟨h3, h6⟩
  have eΔ := constant (fun t => (hw1 t).1) t
  have eΓ := constant (fun t => (hw1 t).2) t
  refine ⟨eΔ, eΓ, ?_⟩
  obtain ⟨x, p, _, y, q, _, h, hX, hφ, -, hY, hψ, -⟩ := hp t
  rw [rhs_two v w J t _ _ _ _ _ _ hv hw, eΔ, eΓ] at h
  simp only [Except.ok.injEq, List.cons.injEq, and_true] at h
  obtain ⟨h1, h2, -, h4, h5, -⟩ := h
  obtain ⟨a, b, ha, hb, e1, e2⟩ := dynamics_alone av hk (X t) (φ t) (couplingTorque v J (φ t) (ψ t)) t hΔ
  obtain ⟨c, d, hc, hd, e3, e4⟩ := dynamics_alone aw hl (Y t) (ψ t) (couplingTorque w J (ψ t) (φ t)) t hΓ
  have hcos : ∀ θ η : ℝ, HasDerivAt (fun θ => 2 * J / mu0 * Real.cos (θ - η)) (2 * J / mu0 * -Real.sin (θ - η)) θ := fun θ η => by
    have := (((hasDerivAt_id θ).sub_const η).cos).const_mul (2 * J / (mu0 : ℝ))
    simpa using this
  have hcos' : ∀ θ η : ℝ, HasDerivAt (fun η => 2 * J / mu0 * Real.cos (θ - η)) (2 * J / mu0 * Real.sin (θ - η)) η := fun θ η => by
    have := (((hasDerivAt_id η).const_sub θ).cos).const_mul (2 * J / (mu0 : ℝ))
    simpa using this
  have hcosp : HasDerivAt (fun s => 2 * J / mu0 * Real.cos (φ s - ψ s)) (2 * J / mu0 * (-Real.sin (φ t - ψ t) * (p - q))) t :=
    ((hφ.sub hψ).cos).const_mul _
  refine ⟨_, _, _, _, (((ha.const_mul _).add_const _).sub (hcos (φ t) (ψ t))), ((hb.const_mul _).add_const _).sub_const _,
    ((hc.const_mul _).const_add _).sub (hcos' (φ t) (ψ t)), ((hd.const_mul _).const_add _).sub_const _,
    ((((energy_along v hk (Δ 0) hX hφ ha hb).const_mul _).add ((energy_along w hl (Γ 0) hY hψ hc hd).const_mul _)).sub hcosp).congr_deriv ?_⟩
  have hs : Real.sin (ψ t - φ t) = -Real.sin (φ t - ψ t) := by rw [← Real.sin_neg]; congr 1; ring
  have hm := mu0_pos.ne'
  have d1 : 1 + v.alpha ^ 2 ≠ 0 := by positivity
  have d2 : 1 + w.alpha ^ 2 ≠ 0 := by positivity
  have t1 : couplingTorque v J (φ t) (ψ t) = 2 * J / mu0 * Real.sin (φ t - ψ t) / (v.Ms * v.thickness) := by
    unfold couplingTorque
    have := left_ne_zero_of_mul mv
    have := right_ne_zero_of_mul mv
    field_simp
  have t2 : couplingTorque w J (ψ t) (φ t) = -(2 * J / mu0 * Real.sin (φ t - ψ t)) / (w.Ms * w.thickness) := by
    unfold couplingTorque
    have := left_ne_zero_of_mul mw
    have := right_ne_zero_of_mul mw
    rw [hs]
    field_simp
  rw [← h1, ← h2, ← h4, ← h5, e1, e2, e3, e4, t1, t2, show (gyro : ℝ) = 221100 by norm_num [gyro]]
  have k1 := rate_algebra v.alpha (Δ 0) (2 * J / mu0 * Real.sin (φ t - ψ t)) a b mv
  have k2 := rate_algebra w.alpha (Γ 0) (-(2 * J / mu0 * Real.sin (φ t - ψ t))) c d mw
  linear_combination k1 + k2

/-- C129: the common energy of two coupled walls without currents never rises. -/
theorem C129_pair_decreases {v w : Wall ℝ} (av : LeftAlone v) (aw : LeftAlone w) {J hk hl : ℝ} (hv : v.Hk = some hk) (hw : w.Hk = some hl)
    (mv : 0 < v.Ms * v.thickness) (mw : 0 < w.Ms * w.thickness) {X φ Δ Y ψ Γ : ℝ → ℝ} (hp : WallPaths v w J X φ Δ Y ψ Γ)
    (hΔ : Δ 0 ≠ 0) (hΓ : Γ 0 ≠ 0) : Antitone fun t => pairEnergy v w J hk hl (Δ t) (Γ t) (X t) (φ t) (Y t) (ψ t) := by
  have h := C129_pair av aw hv hw mv.ne' mw.ne' hp hΔ hΓ
  simp only [fun t => (h t).1, fun t => (h t).2.1]
  have d1 := av.damping
  have d2 := aw.damping
  refine antitone_of_deriv_nonpos (fun t => ?_) fun t => ?_
  · obtain ⟨-, -, a, b, c, d, -, -, -, -, h⟩ := h t
    exact h.differentiableAt
  · obtain ⟨-, -, a, b, c, d, -, -, -, -, h⟩ := h t
    rw [h.deriv]
    have : 0 ≤ 221100 * v.alpha / ((1 + v.alpha ^ 2) * (v.Ms * v.thickness)) * (a ^ 2 + (Δ 0 * b) ^ 2) := by positivity
    have : 0 ≤ 221100 * w.alpha / ((1 + w.alpha ^ 2) * (w.Ms * w.thickness)) * (c ^ 2 + (Γ 0 * d) ^ 2) := by positivity
    linarith

/-- C129 refuted for the edges: the potential of the edges is multiplied by `Q`. A wall that nothing else acts on is pushed away from the
edges towards the middle for `Q = 1`, and towards the edges for `Q = -1`. -/
theorem C129_edges_refuted {w : Wall ℝ} (hw : LeftAlone w) {hk : ℝ} (hk' : w.Hk = some hk) (h0 : hk = 0) (hx : w.hx = 0) (hy : w.hy = 0)
    (hz : w.hz = 0) (hD : w.D = 0) (hV : w.V0pin = 0) (hE : 0 < w.V0edge) (hL : 0 < w.Lx) {J t X φ Δ a b c : ℝ} (hΔ : 0 < Δ)
    (hX : X ≠ w.Lx / 2) (h : (Walls.mk [w] J).rhs t [X, φ, Δ] = .ok [a, b, c]) :
    (w.Q = 1 → a * (X - w.Lx / 2) < 0) ∧ (w.Q = -1 → 0 < a * (X - w.Lx / 2)) := by
  subst h0
  rw [rhs_one w J t X φ Δ 0 hk'] at h
  simp only [Except.ok.injEq, List.cons.injEq, and_true] at h
  obtain ⟨h1, -, -⟩ := h
  have hα := hw.damping
  set u := (X - w.Lx / 2) / (w.Lx / 2) with hu
  have hu0 : X - w.Lx / 2 = u * (w.Lx / 2) := by rw [hu]; field_simp
  have hne : u ≠ 0 := by
    intro h
    rw [h, zero_mul] at hu0
    exact hX (by linarith)
  have e : a = -(w.Q * (Δ * w.alpha * gyro * 6 * w.V0edge * Real.cosh u ^ 5 / (w.Lx / 2) / (1 + w.alpha ^ 2)) * Real.sinh u) := by
    rw [← h1]
    simp only [Wall.dynamics, gammaA, gammaB, pinningField, edgeField, hw.current, hw.rashba, hx, hy, hz, hD, hV, Wall.hdmi,
      Scalar.sinh_real, Scalar.cosh_real, Scalar.powi_real]
    simp [← hu]
    ring
  have hc := Real.cosh_pos u
  have hg := gyro_pos
  have hs : 0 < Real.sinh u * u := by
    rcases lt_or_gt_of_ne hne with h | h
    · exact mul_pos_of_neg_of_neg (Real.sinh_neg_iff.2 h) h
    · exact mul_pos (Real.sinh_pos_iff.2 h) h
  have hK : 0 < Δ * w.alpha * gyro * 6 * w.V0edge * Real.cosh u ^ 5 / (w.Lx / 2) / (1 + w.alpha ^ 2) := by positivity
  have key : a * (X - w.Lx / 2) = -(w.Q * ((Δ * w.alpha * gyro * 6 * w.V0edge * Real.cosh u ^ 5 / (w.Lx / 2) / (1 + w.alpha ^ 2)) *
      (Real.sinh u * u) * (w.Lx / 2))) := by
    rw [e, hu0]
    ring
  have hpos := mul_pos (mul_pos hK hs) (half_pos hL)
  constructor <;> intro hQ <;> rw [key, hQ] <;> linarith

/-- C129 refuted for a dynamic width: the width follows the energy `A/Δ + Δ (Ku + Kp sin² φ)`, which is largest across the easy
direction in the plane, and the angle climbs it. At the balanced width and away from the two directions the energy rises. -/
theorem C129_width_refuted {w : Wall ℝ} (hje : ∀ t, w.je t = 0) (hα : 0 < w.alpha) (hd : w.relax = .dynamic) (hr : w.Hr = 0)
    (hk' : w.Hk = some (2 * w.Kp / (mu0 * w.Ms))) (hx : w.hx = 0) (hy : w.hy = 0) (hz : w.hz = 0) (hD : w.D = 0)
    (hV : w.V0pin = 0) (hE : w.V0edge = 0) (hM : 0 < w.Ms) (hA : 0 < w.A) (hKu : 0 < w.Ku) (hKp : 0 < w.Kp) {J : ℝ} {X φ Δ : ℝ → ℝ}
    {t : ℝ} (hp : MovesAt w J X φ Δ t) (hΔ : Δ t = balancedWidth w.A w.Ku w.Kp (φ t)) (hφ : Real.sin (2 * φ t) ≠ 0) :
    ∃ r, 0 < r ∧ HasDerivAt (fun s => w.A / Δ s + Δ s * (w.Ku + w.Kp * Real.sin (φ s) ^ 2)) r t := by
  obtain ⟨a, b, c, h, -, h2, h3⟩ := hp
  rw [rhs_one w J t _ _ _ _ hk', if_pos hd] at h
  simp only [Except.ok.injEq, List.cons.injEq, and_true] at h
  obtain ⟨-, e2, e3⟩ := h
  have hK : 0 < w.Ku + w.Kp * Real.sin (φ t) ^ 2 := by positivity
  have hpos : 0 < Δ t := by
    rw [hΔ]
    unfold balancedWidth
    positivity
  have hsq : Δ t ^ 2 * (w.Ku + w.Kp * Real.sin (φ t) ^ 2) = w.A := by
    rw [hΔ]
    unfold balancedWidth
    rw [Real.sq_sqrt (by positivity)]
    field_simp
  have hm := mu0_pos
  have hg := gyro_pos
  have hb : b = w.alpha * gyro * (w.Kp / (mu0 * w.Ms)) * Real.sin (2 * φ t) / (1 + w.alpha ^ 2) := by
    rw [← e2]
    simp only [Wall.dynamics, gammaA, gammaB, pinningField, edgeField, hje, hr, hx, hy, hz, hD, hV, hE, Wall.hdmi]
    simp
    ring
  have hd1 := ((hasDerivAt_const t w.A).div h3 hpos.ne').add
    (h3.mul (((h2.sin.pow 2).const_mul w.Kp).const_add w.Ku))
  refine ⟨Δ t * w.Kp * Real.sin (2 * φ t) * b, ?_, hd1.congr_deriv ?_⟩
  · rw [hb]
    have : 0 < Real.sin (2 * φ t) ^ 2 := by positivity
    have e : Δ t * w.Kp * Real.sin (2 * φ t) * (w.alpha * gyro * (w.Kp / (mu0 * w.Ms)) * Real.sin (2 * φ t) / (1 + w.alpha ^ 2)) =
        Δ t * w.Kp * (w.alpha * gyro * (w.Kp / (mu0 * w.Ms))) / (1 + w.alpha ^ 2) * Real.sin (2 * φ t) ^ 2 := by ring
    rw [e]
    positivity
  · rw [Real.sin_two_mul]
    have : c * (w.Ku + w.Kp * Real.sin (φ t) ^ 2) = w.A * c / Δ t ^ 2 := by
      rw [← hsq]
      field_simp
    simp only [Pi.pow_apply] at *
    rw [zero_mul, zero_sub]
    simp
    linear_combination this

end Domain

/-! ## The Walker field -/

namespace Domain
open Filter Topology

/-- A function that converges and whose slope converges has the limit 0 of the slope. -/
theorem slope_limit {f g : ℝ → ℝ} (hf : ∀ t, HasDerivAt f (g t) t) {L ℓ : ℝ} (h1 : Tendsto f atTop (𝓝 L)) (h2 : Tendsto g atTop (𝓝 ℓ)) :
    ℓ = 0 := by
  have h3 : Tendsto (fun t => f (t + 1) - f t) atTop (𝓝 0) := by
    have := (h1.comp (tendsto_atTop_add_const_right atTop (1 : ℝ) tendsto_id)).sub h1
    simpa using this
  have h4 : ∀ t, ∃ c, t < c ∧ f (t + 1) - f t = g c := by
    intro t
    obtain ⟨c, hc, e⟩ := exists_hasDerivAt_eq_slope f g (show t < t + 1 by linarith)
      (fun s _ => (hf s).continuousAt.continuousWithinAt) fun s _ => hf s
    refine ⟨c, hc.1, ?_⟩
    rw [e]
    simp
  choose c hc e using h4
  have h5 : Tendsto (fun t => g (c t)) atTop (𝓝 ℓ) :=
    h2.comp (tendsto_atTop_mono (fun t => (hc t).le) tendsto_id)
  refine tendsto_nhds_unique (h5.congr fun t => (e t).symm) h3

/-- A solution of an autonomous equation that starts between two rest points and moves upwards or rests tends to a rest point. -/
theorem settles_up {f : ℝ → ℝ} {K : NNReal} (hf : LipschitzWith K f) {φ : ℝ → ℝ} (hφ : ∀ t, HasDerivAt φ (f (φ t)) t) {z : ℝ}
    (hz : f z = 0) (h0 : φ 0 ≤ z) (hpos : 0 ≤ f (φ 0)) : ∃ L, Tendsto φ atTop (𝓝 L) ∧ f L = 0 := by
  by_cases hr : ∃ s, f (φ s) = 0
  · obtain ⟨s, hs⟩ := hr
    have : φ = fun _ => φ s := ODE_solution_unique_univ (v := fun _ => f) (s := fun _ => Set.univ) (t₀ := s) (K := K)
      (fun _ => hf.lipschitzOnWith) (fun t => ⟨hφ t, trivial⟩) (fun t => ⟨by rw [hs]; exact hasDerivAt_const _ _, trivial⟩) rfl
    refine ⟨φ s, ?_, hs⟩
    rw [this]
    exact tendsto_const_nhds
  · push Not at hr
    have hcφ : Continuous φ := continuous_iff_continuousAt.2 fun t => (hφ t).continuousAt
    have hc : Continuous fun t => f (φ t) := hf.continuous.comp hcφ
    have hp : ∀ t, 0 < f (φ t) := by
      intro t
      by_contra hn
      push Not at hn
      have hq : 0 < f (φ 0) := lt_of_le_of_ne hpos (hr 0).symm
      obtain ⟨s, hs⟩ := mem_range_of_exists_le_of_exists_ge hc ⟨t, hn⟩ ⟨0, hq.le⟩
      exact hr s hs
    have hm : Monotone φ := monotone_of_deriv_nonneg (fun t => (hφ t).differentiableAt) fun t => by rw [(hφ t).deriv]; exact (hp t).le
    have hb : ∀ t, φ t ≤ z := by
      intro t
      by_contra hn
      push Not at hn
      obtain ⟨s, hs⟩ := mem_range_of_exists_le_of_exists_ge hcφ ⟨0, h0⟩ ⟨t, hn.le⟩
      exact hr s (by rw [hs, hz])
    have hl := tendsto_atTop_ciSup hm ⟨z, by rintro _ ⟨t, rfl⟩; exact hb t⟩
    exact ⟨_, hl, slope_limit hφ hl (hf.continuous.continuousAt.tendsto.comp hl)⟩

/-- A solution of an autonomous equation that starts between two rest points tends to a rest point. -/
theorem settles {f : ℝ → ℝ} {K : NNReal} (hf : LipschitzWith K f) {φ : ℝ → ℝ} (hφ : ∀ t, HasDerivAt φ (f (φ t)) t) {y z : ℝ}
    (hy : f y = 0) (hz : f z = 0) (h0 : y ≤ φ 0) (h1 : φ 0 ≤ z) : ∃ L, Tendsto φ atTop (𝓝 L) ∧ f L = 0 := by
  rcases le_total 0 (f (φ 0)) with h | h
  · exact settles_up hf hφ hz h1 h
  · have hg : LipschitzWith K fun x => -f (-x) := by
      refine LipschitzWith.of_dist_le_mul fun x y => ?_
      have := hf.dist_le_mul (-x) (-y)
      simpa [dist_neg_neg] using this
    obtain ⟨L, hL, e⟩ := settles_up (f := fun x => -f (-x)) hg (φ := fun t => -φ t) (fun t => (hφ t).neg.congr_deriv (by simp)) (z := -y)
      (by simp [hy]) (by linarith) (by simpa using h)
    refine ⟨-L, by simpa using hL.neg, by simpa using e⟩

end Domain

namespace Spec
open Domain

/-- Nothing but the perpendicular field and the anisotropy acts on the wall. -/
structure OnlyField (w : Wall ℝ) : Prop extends LeftAlone w where
  hx : w.hx = 0
  hy : w.hy = 0
  dmi : w.D = 0
  pin : w.V0pin = 0
  edge : w.V0edge = 0

end Spec

namespace Domain
open Filter Topology

/-- The equations of such a wall. -/
theorem only_field {w : Wall ℝ} (hw : OnlyField w) {hk : ℝ} (hk' : w.Hk = some hk) (J t X φ Δ : ℝ) :
    (Walls.mk [w] J).rhs t [X, φ, Δ] = .ok [221100 * Δ / (1 + w.alpha ^ 2) * (w.alpha * (w.Q * w.hz) - hk / 2 * Real.sin (2 * φ)),
      221100 / (1 + w.alpha ^ 2) * (w.Q * w.hz + w.alpha * hk / 2 * Real.sin (2 * φ)), 0] := by
  rw [rhs_one w J t X φ Δ hk hk', if_neg hw.static]
  have hb : gammaB X φ w.Q Δ (w.Hshe * w.je t) w.hz w.Hr w.beta (w.bj * w.je t) w.Ms w.Lx w.Ly w.Lz w.V0pin w.V0edge w.pinning
        = 221100 * (w.Q * w.hz) := by
    simp [gammaB, pinningField, edgeField, hw.current, hw.rashba, hw.pin, hw.edge, gyro]
  have ha : gammaA φ w.Q Δ hk w.hx w.hy (w.hdmi Δ) (w.bj * w.je t) 0 = 221100 * (-(hk / 2) * Real.sin (2 * φ)) := by
    simp [gammaA, Wall.hdmi, hw.current, hw.hx, hw.hy, hw.dmi, gyro]
    left
    ring
  simp only [Wall.dynamics, ha, hb, Except.ok.injEq, List.cons.injEq, and_true]
  constructor <;> ring

theorem angle_slope {w : Wall ℝ} (hw : OnlyField w) {hk : ℝ} (hk' : w.Hk = some hk) {J : ℝ} {X φ Δ : ℝ → ℝ} (hp : WallPath w J X φ Δ)
    (t : ℝ) : HasDerivAt φ (221100 / (1 + w.alpha ^ 2) * (w.Q * w.hz + w.alpha * hk / 2 * Real.sin (2 * φ t))) t ∧
      HasDerivAt X (221100 * Δ 0 / (1 + w.alpha ^ 2) * (w.alpha * (w.Q * w.hz) - hk / 2 * Real.sin (2 * φ t))) t := by
  obtain ⟨a, b, c, h, h1, h2, -⟩ := hp t
  rw [only_field hw hk', width_constant hw.toLeftAlone hp t] at h
  simp only [Except.ok.injEq, List.cons.injEq, and_true] at h
  rw [h.1, h.2.1]
  exact ⟨h2, h1⟩

/-- C130: a wall has a steady motion if and only if the field is at most the Walker field `α |hk| / 2`. -/
theorem C130_steady {w : Wall ℝ} (hw : OnlyField w) {hk : ℝ} (hk' : w.Hk = some hk) (J t X Δ : ℝ) :
    (∃ φ v, (Walls.mk [w] J).rhs t [X, φ, Δ] = .ok [v, 0, 0]) ↔ |w.Q * w.hz| ≤ w.alpha * |hk| / 2 := by
  have hα := hw.damping
  have hd : 1 + w.alpha ^ 2 ≠ 0 := by positivity
  simp only [only_field hw hk', Except.ok.injEq, List.cons.injEq, and_true]
  constructor
  · rintro ⟨φ, v, -, h⟩
    have h0 : w.Q * w.hz = -(w.alpha * hk / 2 * Real.sin (2 * φ)) := by
      rcases mul_eq_zero.1 h with h | h
      · exact absurd h (by positivity)
      · linarith
    rw [h0, abs_neg, abs_mul, abs_div, abs_mul, abs_of_pos hα, abs_two]
    exact mul_le_of_le_one_right (by positivity) (Real.abs_sin_le_one _)
  · intro h
    by_cases hb : hk = 0
    · subst hb
      rw [abs_zero, mul_zero, zero_div] at h
      have h0 := abs_nonpos_iff.1 h
      exact ⟨0, _, rfl, by rw [h0]; ring⟩
    · have hb' : w.alpha * hk / 2 ≠ 0 := by positivity
      have hle : |-(w.Q * w.hz) / (w.alpha * hk / 2)| ≤ 1 := by
        have e : |w.alpha * hk / 2| = w.alpha * |hk| / 2 := by rw [abs_div, abs_mul, abs_of_pos hα, abs_two]
        rw [abs_div, abs_neg, div_le_one (abs_pos.2 hb'), e]
        exact h
      refine ⟨Real.arcsin (-(w.Q * w.hz) / (w.alpha * hk / 2)) / 2, _, rfl, ?_⟩
      rw [mul_div_cancel₀ _ two_ne_zero, Real.sin_arcsin (abs_le.1 hle).1 (abs_le.1 hle).2]
      field_simp
      ring

/-- C130: up to the Walker field every wall settles: its angle converges and its velocity tends to `Q γ hz Δ / α`. -/
theorem C130_settles {w : Wall ℝ} (hw : OnlyField w) {hk : ℝ} (hk' : w.Hk = some hk) {J : ℝ} {X φ Δ : ℝ → ℝ} (hp : WallPath w J X φ Δ)
    (h : |w.Q * w.hz| ≤ w.alpha * |hk| / 2) :
    (∃ ψ, Tendsto φ atTop (𝓝 ψ)) ∧
    ∃ v : ℝ → ℝ, (∀ t, HasDerivAt X (v t) t) ∧ Tendsto v atTop (𝓝 (w.Q * 221100 * w.hz * Δ 0 / w.alpha)) := by
  have hα := hw.damping
  obtain ⟨χ, v, e⟩ := (C130_steady hw hk' J 0 (X 0) (Δ 0)).2 h
  rw [only_field hw hk'] at e
  simp only [Except.ok.injEq, List.cons.injEq, and_true] at e
  set f : ℝ → ℝ := fun x => 221100 / (1 + w.alpha ^ 2) * (w.Q * w.hz + w.alpha * hk / 2 * Real.sin (2 * x)) with hf
  have hper : ∀ k : ℤ, f (χ + k * Real.pi) = 0 := by
    intro k
    rw [hf]
    dsimp only
    rw [show 2 * (χ + k * Real.pi) = 2 * χ + k * (2 * Real.pi) by ring, Real.sin_add_int_mul_two_pi]
    exact e.2
  have hlip : ∃ K, LipschitzWith K f := by
    have hd : ∀ x, HasDerivAt f (221100 / (1 + w.alpha ^ 2) * (w.alpha * hk / 2 * (Real.cos (2 * x) * 2))) x := by
      intro x
      have h2 : HasDerivAt (fun x : ℝ => 2 * x) 2 x := by simpa using (hasDerivAt_id x).const_mul (2 : ℝ)
      exact ((h2.sin.const_mul (w.alpha * hk / 2)).const_add (w.Q * w.hz)).const_mul _
    refine ⟨Real.nnabs (221100 / (1 + w.alpha ^ 2) * (w.alpha * hk)),
      lipschitzWith_of_nnnorm_deriv_le (fun x => (hd x).differentiableAt) fun x => ?_⟩
    rw [(hd x).deriv, ← NNReal.coe_le_coe]
    simp only [coe_nnnorm, Real.norm_eq_abs, Real.coe_nnabs]
    rw [show 221100 / (1 + w.alpha ^ 2) * (w.alpha * hk / 2 * (Real.cos (2 * x) * 2)) =
      221100 / (1 + w.alpha ^ 2) * (w.alpha * hk) * Real.cos (2 * x) by ring, abs_mul]
    exact mul_le_of_le_one_right (abs_nonneg _) (Real.abs_cos_le_one _)
  obtain ⟨K, hK⟩ := hlip
  have hpi := Real.pi_pos
  obtain ⟨L, hL, e0⟩ := settles hK (fun t => (angle_slope hw hk' hp t).1) (hper ⌊(φ 0 - χ) / Real.pi⌋)
    (hper (⌊(φ 0 - χ) / Real.pi⌋ + 1))
    (by
      have := Int.floor_le ((φ 0 - χ) / Real.pi)
      rw [le_div_iff₀ hpi] at this
      linarith)
    (by
      have := (Int.lt_floor_add_one ((φ 0 - χ) / Real.pi)).le
      rw [div_le_iff₀ hpi] at this
      push_cast
      linarith)
  refine ⟨⟨L, hL⟩, _, fun t => (angle_slope hw hk' hp t).2, ?_⟩
  have hs : hk / 2 * Real.sin (2 * L) = -(w.Q * w.hz) / w.alpha := by
    rcases mul_eq_zero.1 e0 with h | h
    · exact absurd h (by positivity)
    · field_simp
      linarith
  have hlim : Tendsto (fun t => 221100 * Δ 0 / (1 + w.alpha ^ 2) * (w.alpha * (w.Q * w.hz) - hk / 2 * Real.sin (2 * φ t))) atTop
      (𝓝 (221100 * Δ 0 / (1 + w.alpha ^ 2) * (w.alpha * (w.Q * w.hz) - hk / 2 * Real.sin (2 * L)))) :=
    (tendsto_const_nhds.sub (((Real.continuous_sin.tendsto _).comp (hL.const_mul 2)).const_mul _)).const_mul _
  refine hlim.congr' (Eventually.of_forall fun _ => rfl) |>.trans (le_of_eq ?_)
  congr 1
  rw [hs]
  have hd : 1 + w.alpha ^ 2 ≠ 0 := by positivity
  field_simp
  ring

/-- C130: beyond the Walker field the angle turns forever, at no less than a fixed rate. -/
theorem C130_turns {w : Wall ℝ} (hw : OnlyField w) {hk : ℝ} (hk' : w.Hk = some hk) {J : ℝ} {X φ Δ : ℝ → ℝ} (hp : WallPath w J X φ Δ)
    (h : w.alpha * |hk| / 2 < |w.Q * w.hz|) :
    (∀ t, 0 ≤ t → 221100 / (1 + w.alpha ^ 2) * (|w.Q * w.hz| - w.alpha * |hk| / 2) * t ≤ |φ t - φ 0|) ∧
    Tendsto (fun t => |φ t - φ 0|) atTop atTop := by
  have hα := hw.damping
  have hg : 0 < 221100 / (1 + w.alpha ^ 2) := by positivity
  have key : ∀ t, 0 ≤ t → 221100 / (1 + w.alpha ^ 2) * (|w.Q * w.hz| - w.alpha * |hk| / 2) * t ≤ |φ t - φ 0| := by
    intro t ht
    rcases ht.eq_or_lt with rfl | ht
    · simp
    obtain ⟨c, -, e⟩ := exists_hasDerivAt_eq_slope φ _ ht (fun s _ => (angle_slope hw hk' hp s).1.continuousAt.continuousWithinAt)
      fun s _ => (angle_slope hw hk' hp s).1
    have e' : φ t - φ 0 = 221100 / (1 + w.alpha ^ 2) * (w.Q * w.hz + w.alpha * hk / 2 * Real.sin (2 * φ c)) * t := by
      rw [e, sub_zero, div_mul_cancel₀ _ ht.ne']
    rw [e', abs_mul _ t, abs_mul (221100 / (1 + w.alpha ^ 2)) _, abs_of_pos ht, abs_of_pos hg]
    refine mul_le_mul_of_nonneg_right (mul_le_mul_of_nonneg_left ?_ (by positivity)) ht.le
    have h1 : |w.alpha * hk / 2 * Real.sin (2 * φ c)| ≤ w.alpha * |hk| / 2 := by
      rw [abs_mul, abs_div, abs_mul, abs_of_pos hα, abs_two]
      exact mul_le_of_le_one_right (by positivity) (Real.abs_sin_le_one _)
    have h2 := abs_sub_abs_le_abs_add (w.Q * w.hz) (w.alpha * hk / 2 * Real.sin (2 * φ c))
    linarith
  refine ⟨key, tendsto_atTop_mono' atTop ((eventually_ge_atTop 0).mono key) ?_⟩
  exact tendsto_id.const_mul_atTop (mul_pos hg (by linarith))

/-! ### Cases that meet the hypotheses -/

theorem wall_only (hz : ℝ) (hk : Option ℝ) : OnlyField { wall with hz := hz, Hk := hk } where
  current _ := rfl
  rashba := rfl
  damping := by norm_num [wall]
  static := by simp [wall]
  period := by norm_num [wall]
  hx := rfl
  hy := rfl
  dmi := rfl
  pin := rfl
  edge := rfl

/-- A path of a wall in the field `hz`, from its equations. -/
theorem path_of {hz hk J : ℝ} {X φ : ℝ → ℝ}
    (hX : ∀ t, HasDerivAt X (221100 * (4 / 5) * (hz / 2 - hk / 2 * Real.sin (2 * φ t))) t)
    (hφ : ∀ t, HasDerivAt φ (221100 * (4 / 5) * (hz + hk / 4 * Real.sin (2 * φ t))) t) :
    WallPath { wall with hz := hz, Hk := some hk } J X φ fun _ => 1 := by
  intro t
  refine ⟨_, _, _, only_field (wall_only hz (some hk)) rfl J t (X t) (φ t) 1, (hX t).congr_deriv ?_, (hφ t).congr_deriv ?_,
    hasDerivAt_const t 1⟩ <;> simp only [wall] <;> ring

/-- The Walker field itself (100 A/m for the damping 1/2 and the anisotropy 400 A/m): the angle rests at 45 degrees and the wall moves;
its energy falls. -/
example (J : ℝ) : WallPath { wall with hz := 100, Hk := some (-400) } J (fun t => 200 * 221100 * t) (fun _ => Real.pi / 4) (fun _ => 1) ∧
    |wall.Q * 100| ≤ wall.alpha * |(-400 : ℝ)| / 2 ∧
    wallEnergy { wall with hz := 100, Hk := some (-400) } (-400) 1 (200 * 221100 * 1) (Real.pi / 4) <
      wallEnergy { wall with hz := 100, Hk := some (-400) } (-400) 1 (200 * 221100 * 0) (Real.pi / 4) := by
  have h2 : Real.sin (2 * (Real.pi / 4)) = 1 := by rw [show 2 * (Real.pi / 4) = Real.pi / 2 by ring, Real.sin_pi_div_two]
  refine ⟨path_of (fun t => ?_) fun t => ?_, by norm_num [wall], ?_⟩
  · rw [h2]
    exact ((hasDerivAt_id t).const_mul (200 * 221100 : ℝ)).congr_deriv (by norm_num)
  · rw [h2]
    exact (hasDerivAt_const t _).congr_deriv (by norm_num)
  · norm_num [wallEnergy, wall, edgePotential, pinPotential]

/-- Without field the angle relaxes along a nontrivial path. -/
example (J : ℝ) : WallPath { wall with hz := 0, Hk := some 4 } J (fun t => -2 * Real.arctan (Real.exp (2 * (221100 * (4 / 5)) * t)))
    (fun t => Real.arctan (Real.exp (2 * (221100 * (4 / 5)) * t))) (fun _ => 1) := by
  have hs : ∀ t : ℝ, HasDerivAt (fun t => Real.arctan (Real.exp (2 * (221100 * (4 / 5)) * t)))
      (221100 * (4 / 5) * Real.sin (2 * Real.arctan (Real.exp (2 * (221100 * (4 / 5)) * t)))) t := by
    intro t
    have h1 : HasDerivAt (fun t : ℝ => 2 * (221100 * (4 / 5)) * t) (2 * (221100 * (4 / 5))) t := by
      simpa using (hasDerivAt_id t).const_mul (2 * (221100 * (4 / 5)) : ℝ)
    refine h1.exp.arctan.congr_deriv ?_
    set u := Real.exp (2 * (221100 * (4 / 5)) * t)
    have hp : 0 < 1 + u ^ 2 := by positivity
    rw [Real.sin_two_mul, Real.sin_arctan, Real.cos_arctan]
    have hq : √(1 + u ^ 2) * √(1 + u ^ 2) = 1 + u ^ 2 := Real.mul_self_sqrt hp.le
    have e : 2 * (u / √(1 + u ^ 2)) * (1 / √(1 + u ^ 2)) = 2 * u / (1 + u ^ 2) := by
      have hn : √(1 + u ^ 2) ≠ 0 := (Real.sqrt_pos.2 hp).ne'
      calc 2 * (u / √(1 + u ^ 2)) * (1 / √(1 + u ^ 2)) = 2 * u / (√(1 + u ^ 2) * √(1 + u ^ 2)) := by field_simp
        _ = _ := by rw [hq]
    rw [e]
    ring
  refine path_of (fun t => ?_) fun t => ?_
  · exact ((hs t).const_mul (-2)).congr_deriv (by ring)
  · exact (hs t).congr_deriv (by ring)

/-- Beyond the Walker field. -/
example (J : ℝ) : WallPath { wall with hz := 1, Hk := some 0 } J (fun t => 221100 * (4 / 5) * (1 / 2) * t) (fun t => 221100 * (4 / 5) * t)
    (fun _ => 1) ∧ wall.alpha * |(0 : ℝ)| / 2 < |wall.Q * 1| := by
  refine ⟨path_of (fun t => ?_) fun t => ?_, by norm_num [wall]⟩
  · exact ((hasDerivAt_id t).const_mul (221100 * (4 / 5) * (1 / 2) : ℝ)).congr_deriv (by ring)
  · exact ((hasDerivAt_id t).const_mul (221100 * (4 / 5) : ℝ)).congr_deriv (by ring)

/-- Two coupled walls at rest with the same angle meet the hypotheses of `C129_pair`. -/
example (J : ℝ) : WallPaths { wall with hz := 100, Hk := some (-400) } { wall with hz := 100, Hk := some (-400) } J
    (fun t => 200 * 221100 * t) (fun _ => Real.pi / 4) (fun _ => 1) (fun t => 200 * 221100 * t) (fun _ => Real.pi / 4) fun _ => 1 := by
  have h2 : (2 : ℝ) * (Real.pi / 4) = Real.pi / 2 := by ring
  intro t
  refine ⟨_, _, _, _, _, _, rhs_two _ _ J t _ _ _ _ _ _ rfl rfl, ?_⟩
  have h : ∀ c : ℝ, HasDerivAt (fun t : ℝ => c * t) c t := fun c => by simpa using (hasDerivAt_id t).const_mul c
  refine ⟨(h _).congr_deriv ?_, (hasDerivAt_const t _).congr_deriv ?_, (hasDerivAt_const t _).congr_deriv ?_,
    (h _).congr_deriv ?_, (hasDerivAt_const t _).congr_deriv ?_, (hasDerivAt_const t _).congr_deriv ?_⟩
  all_goals
    simp [Wall.dynamics, gammaA, gammaB, pinningField, edgeField, wall, h2, Wall.hdmi, couplingTorque, gyro]
    try norm_num

/-- A wall at an edge potential. -/
example (Q : ℝ) : LeftAlone { wall with hz := 0, Hk := some 0, V0edge := 1, Q := Q } ∧
    ∃ a b c, (Walls.mk [{ wall with hz := 0, Hk := some 0, V0edge := 1, Q := Q }] 0).rhs 0 [2, 0, 1] = .ok [a, b, c] :=
  ⟨⟨fun _ => rfl, rfl, by norm_num [wall], by simp [wall], by norm_num [wall]⟩, _, _, _, rhs_one _ 0 0 2 0 1 0 rfl⟩

/-- A wall with in-plane anisotropy and a dynamic width, at its balanced width and 45 degrees. -/
example : ∃ (X φ Δ : ℝ → ℝ), MovesAt { wall with hz := 0, Kp := 1, relax := .dynamic, Hk := some (2 * 1 / (mu0 * 1)) } 0 X φ Δ 0 ∧
    Δ 0 = balancedWidth 1 4 1 (φ 0) ∧ Real.sin (2 * φ 0) ≠ 0 := by
  have h : ∀ p c : ℝ, HasDerivAt (fun t : ℝ => p + c * t) c 0 := fun p c => by
    simpa using ((hasDerivAt_id (0 : ℝ)).const_mul c).const_add p
  obtain ⟨a, b, c, e⟩ : ∃ a b c, (Walls.mk [{ wall with hz := 0, Kp := 1, relax := .dynamic, Hk := some (2 * 1 / (mu0 * 1)) }] 0).rhs 0
      [0, Real.pi / 4, balancedWidth 1 4 1 (Real.pi / 4)] = .ok [a, b, c] := ⟨_, _, _, rhs_one _ 0 0 _ _ _ _ rfl⟩
  refine ⟨fun t => 0 + a * t, fun t => Real.pi / 4 + b * t, fun t => balancedWidth 1 4 1 (Real.pi / 4) + c * t,
    ⟨a, b, c, by simpa using e, h _ _, h _ _, h _ _⟩, by simp, ?_⟩
  dsimp only
  rw [mul_zero, add_zero, show 2 * (Real.pi / 4) = Real.pi / 2 by ring, Real.sin_pi_div_two]
  exact one_ne_zero

end Domain
