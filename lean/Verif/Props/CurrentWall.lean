import Verif.Props.WalkerPeriod

set_option linter.unusedSectionVars false
set_option linter.unusedSimpArgs false

/-!
C147: a constant current that acts by spin transfer carries a domain wall along and acts in the moving frame like a field. Thresholds and
velocities of current-driven walls are those of textbooks (Thiaville et al., 2005).
-/

namespace Spec
open Domain

/-- The spin transfer of the wall is the constant velocity `u`; no spin Hall or Rashba fields, pinning and edges, and the width is fixed. -/
structure SpinTransfer (w : Wall ℝ) (u : ℝ) : Prop where
  speed : ∀ t, w.bj * w.je t = u
  hall : w.Hshe = 0
  rashba : w.Hr = 0
  pin : w.V0pin = 0
  edge : w.V0edge = 0
  static : w.relax ≠ .dynamic
  kind : w.Q = 1 ∨ w.Q = -1

/-- ... and nothing else but the anisotropy acts. -/
structure OnlyCurrent (w : Wall ℝ) (u : ℝ) : Prop extends SpinTransfer w u where
  hx : w.hx = 0
  hy : w.hy = 0
  hz : w.hz = 0
  dmi : w.D = 0
  damping : 0 < w.alpha
  period : w.pinning ≠ 0

/-- The wall of width `Δ` without current, in a field that is stronger by `(β - α) u / (γ Δ)` in the direction in which it pushes the wall
forward. -/
noncomputable def withoutCurrent (w : Wall ℝ) (u Δ : ℝ) : Wall ℝ := { w with
  je := fun _ => 0
  hz := w.hz + w.Q * ((w.beta - w.alpha) * u / (221100 * Δ)) }

end Spec

namespace Domain
open Filter Topology Spec

variable {w : Wall ℝ} {u hk J : ℝ} {X φ Δ : ℝ → ℝ}

theorem frame_rhs (h : SpinTransfer w u) (hk' : w.Hk = some hk) (J t x y p : ℝ) {d : ℝ} (hd : d ≠ 0) :
    ∃ a b, (Walls.mk [w] J).rhs t [x, p, d] = .ok [a + u, b, 0] ∧ (Walls.mk [withoutCurrent w u d] J).rhs t [y, p, d] = .ok [a, b, 0] := by
  have hα : 1 + w.alpha ^ 2 ≠ 0 := by positivity
  have hQ : w.Q * w.Q = 1 := by rcases h.kind with e | e <;> rw [e] <;> norm_num
  have e1 := rhs_one (withoutCurrent w u d) J t y p d hk hk'
  rw [if_neg (show (withoutCurrent w u d).relax ≠ .dynamic from h.static)] at e1
  refine ⟨_, _, ?_, e1⟩
  rw [rhs_one w J t x p d hk hk', if_neg h.static]
  have hb : gammaB x p w.Q d (w.Hshe * w.je t) w.hz w.Hr w.beta (w.bj * w.je t) w.Ms w.Lx w.Ly w.Lz w.V0pin w.V0edge w.pinning
        = 221100 * (w.Q * w.hz) + w.beta * u / d := by
    simp [gammaB, pinningField, edgeField, h.speed, h.hall, h.rashba, h.pin, h.edge, gyro]
  have hb' : gammaB y p w.Q d (w.Hshe * 0) (w.hz + w.Q * ((w.beta - w.alpha) * u / (221100 * d))) w.Hr w.beta (w.bj * 0) w.Ms w.Lx w.Ly w.Lz
        w.V0pin w.V0edge w.pinning = 221100 * (w.Q * w.hz) + (w.beta - w.alpha) * u / d := by
    simp only [gammaB, pinningField, edgeField, h.hall, h.rashba, h.pin, h.edge, gyro]
    simp
    field_simp
    linear_combination ((w.beta - w.alpha) * u) * hQ
  have ha : ∀ v, gammaA p w.Q d hk w.hx w.hy (w.hdmi d) v 0 = gammaA p w.Q d hk w.hx w.hy (w.hdmi d) 0 0 + v / d := by
    intro v
    simp [gammaA]
  obtain ⟨A, hA⟩ : ∃ A, A = gammaA p w.Q d hk w.hx w.hy (w.hdmi d) 0 0 := ⟨_, rfl⟩
  have d1 : (w.dynamics x p d hk (w.je t) 0).1 = d * (A + u / d + w.alpha * (221100 * (w.Q * w.hz) + w.beta * u / d)) := by
    rw [← hb, hA, ← ha u, ← h.speed t]; rfl
  have d2 : (w.dynamics x p d hk (w.je t) 0).2.1 = -w.alpha * (A + u / d) + (221100 * (w.Q * w.hz) + w.beta * u / d) := by
    rw [← hb, hA, ← ha u, ← h.speed t]; rfl
  have f1 : ((withoutCurrent w u d).dynamics y p d hk ((withoutCurrent w u d).je t) 0).1 =
      d * (A + (w.bj * 0) / d + w.alpha * (221100 * (w.Q * w.hz) + (w.beta - w.alpha) * u / d)) := by
    rw [← hb', hA, ← ha (w.bj * 0)]; rfl
  have f2 : ((withoutCurrent w u d).dynamics y p d hk ((withoutCurrent w u d).je t) 0).2.1 =
      -w.alpha * (A + (w.bj * 0) / d) + (221100 * (w.Q * w.hz) + (w.beta - w.alpha) * u / d) := by
    rw [← hb', hA, ← ha (w.bj * 0)]; rfl
  simp only [Except.ok.injEq, List.cons.injEq, and_true]
  rw [d1, d2, f1, f2, show (withoutCurrent w u d).alpha = w.alpha from rfl]
  constructor
  · field_simp
    ring
  · field_simp
    ring

/-- C147. A path of a wall under a constant current is a path of the same wall without current, in a field changed by `(β - α) u / (γ Δ)`, seen
from a frame that moves with the spin-transfer velocity `u`. -/
theorem C147_frame (h : SpinTransfer w u) (hk' : w.Hk = some hk) (hΔ : Δ 0 ≠ 0) :
    WallPath w J X φ Δ ↔ WallPath (withoutCurrent w u (Δ 0)) J (fun t => X t - u * t) φ Δ := by
  have width : ∀ {v : Wall ℝ} {Y : ℝ → ℝ}, v.relax ≠ .dynamic → v.Hk = some hk → WallPath v J Y φ Δ → ∀ t, Δ t = Δ 0 := by
    intro v Y hv hk2 hp t
    refine constant (fun t => ?_) t
    obtain ⟨a, b, c, e, -, -, hc⟩ := hp t
    rw [rhs_one v J t _ _ _ hk hk2, if_neg hv] at e
    simp only [Except.ok.injEq, List.cons.injEq, and_true] at e
    rw [e.2.2]
    exact hc
  have ramp : ∀ t, HasDerivAt (fun s : ℝ => u * s) u t := fun t => by simpa using (hasDerivAt_id t).const_mul u
  constructor
  · intro hp t
    have hc := width h.static hk' hp
    obtain ⟨a, b, c, e, h1, h2, h3⟩ := hp t
    obtain ⟨a', b', e1, e2⟩ := frame_rhs h hk' J t (X t) (X t - u * t) (φ t) hΔ
    rw [hc t, e1] at e
    simp only [Except.ok.injEq, List.cons.injEq, and_true] at e
    obtain ⟨rfl, rfl, rfl⟩ := e
    exact ⟨a', b', 0, by rw [hc t]; exact e2, (h1.sub (ramp t)).congr_deriv (by ring), h2, h3⟩
  · intro hp t
    have hc := width (v := withoutCurrent w u (Δ 0)) h.static hk' hp
    obtain ⟨a, b, c, e, h1, h2, h3⟩ := hp t
    obtain ⟨a', b', e1, e2⟩ := frame_rhs h hk' J t (X t) (X t - u * t) (φ t) hΔ
    rw [hc t, e2] at e
    simp only [Except.ok.injEq, List.cons.injEq, and_true] at e
    obtain ⟨rfl, rfl, rfl⟩ := e
    refine ⟨a' + u, b', 0, by rw [hc t]; exact e1, ?_, h2, h3⟩
    have := h1.add (ramp t)
    exact this.congr_of_eventuallyEq (.of_forall fun s => by simp)

theorem frame_field (h : OnlyCurrent w u) (d : ℝ) : OnlyField (withoutCurrent w u d) :=
  ⟨⟨fun _ => rfl, h.rashba, h.damping, h.static, h.period⟩, h.hx, h.hy, h.dmi, h.pin, h.edge⟩

theorem frame_push (h : OnlyCurrent w u) (d : ℝ) :
    (withoutCurrent w u d).Q * (withoutCurrent w u d).hz = (w.beta - w.alpha) * u / (221100 * d) := by
  have hQ : w.Q * w.Q = 1 := by rcases h.kind with e | e <;> rw [e] <;> norm_num
  show w.Q * (w.hz + w.Q * ((w.beta - w.alpha) * u / (221100 * d))) = _
  rw [h.hz]
  linear_combination ((w.beta - w.alpha) * u / (221100 * d)) * hQ

theorem threshold {d : ℝ} (hd : 0 < d) (c : ℝ) : |c / (221100 * d)| ≤ w.alpha * |hk| / 2 ↔ |c| ≤ w.alpha * (221100 * |hk| * d / 2) := by
  rw [abs_div, abs_of_pos (by positivity : 0 < 221100 * d), div_le_iff₀ (by positivity)]
  rw [show w.alpha * |hk| / 2 * (221100 * d) = w.alpha * (221100 * |hk| * d / 2) by ring]

/-- C147. Under a current alone a wall has a steady motion if and only if `|β - α| |u| ≤ α γ |hk| Δ / 2`, and then its velocity is `β/α u`. -/
theorem C147_steady (h : OnlyCurrent w u) (hk' : w.Hk = some hk) (J t x : ℝ) {d : ℝ} (hd : 0 < d) :
    ((∃ p v, (Walls.mk [w] J).rhs t [x, p, d] = .ok [v, 0, 0]) ↔ |(w.beta - w.alpha) * u| ≤ w.alpha * (221100 * |hk| * d / 2)) ∧
    ∀ p v, (Walls.mk [w] J).rhs t [x, p, d] = .ok [v, 0, 0] → v = w.beta / w.alpha * u := by
  constructor
  · rw [← threshold hd, ← frame_push h d]
    rw [show w.alpha = (withoutCurrent w u d).alpha from rfl, ← C130_steady (frame_field h d) hk' J t x d]
    constructor
    · rintro ⟨p, v, e⟩
      obtain ⟨a, b, e1, e2⟩ := frame_rhs h.toSpinTransfer hk' J t x x p hd.ne'
      rw [e1] at e
      simp only [Except.ok.injEq, List.cons.injEq, and_true] at e
      exact ⟨p, a, by rw [e2, e.2]⟩
    · rintro ⟨p, v, e⟩
      obtain ⟨a, b, e1, e2⟩ := frame_rhs h.toSpinTransfer hk' J t x x p hd.ne'
      rw [e2] at e
      simp only [Except.ok.injEq, List.cons.injEq, and_true] at e
      exact ⟨p, a + u, by rw [e1, e.2]⟩
  · intro p v e
    rw [C75_spin_transfer w J t x p d v 0 h.damping.ne' hd.ne' h.hz h.hall h.rashba h.pin h.edge e, h.speed]

/-- C147. Up to the threshold every wall settles: its angle converges and its velocity tends to `β/α u`. -/
theorem C147_settles (h : OnlyCurrent w u) (hk' : w.Hk = some hk) (hΔ : 0 < Δ 0) (hp : WallPath w J X φ Δ)
    (hu : |(w.beta - w.alpha) * u| ≤ w.alpha * (221100 * |hk| * Δ 0 / 2)) :
    (∃ ψ, Tendsto φ atTop (𝓝 ψ)) ∧ ∃ v : ℝ → ℝ, (∀ t, HasDerivAt X (v t) t) ∧ Tendsto v atTop (𝓝 (w.beta / w.alpha * u)) := by
  have hq := frame_push h (Δ 0)
  rw [← threshold hΔ, ← hq] at hu
  obtain ⟨h1, v, h2, h3⟩ := C130_settles (frame_field h (Δ 0)) hk' ((C147_frame h.toSpinTransfer hk' hΔ.ne').1 hp) hu
  refine ⟨h1, fun t => v t + u, fun t => ?_, ?_⟩
  · have := (h2 t).add ((hasDerivAt_id t).const_mul u)
    rw [mul_one] at this
    exact this.congr_of_eventuallyEq (.of_forall fun s => by simp)
  · have e : w.beta / w.alpha * u = (withoutCurrent w u (Δ 0)).Q * 221100 * (withoutCurrent w u (Δ 0)).hz * Δ 0 / (withoutCurrent w u (Δ 0)).alpha
        + u := by
      have hα := h.damping.ne'
      have hd := hΔ.ne'
      rw [show (withoutCurrent w u (Δ 0)).Q * 221100 * (withoutCurrent w u (Δ 0)).hz * Δ 0 / (withoutCurrent w u (Δ 0)).alpha =
        (withoutCurrent w u (Δ 0)).Q * (withoutCurrent w u (Δ 0)).hz * (221100 * Δ 0) / w.alpha by
          rw [show (withoutCurrent w u (Δ 0)).alpha = w.alpha from rfl]; ring, hq]
      field_simp
      ring
    rw [e]
    exact h3.add_const u

/-- C147. Beyond the threshold the wall turns for ever, and its mean velocity is `u` and the drift of C139 in the field `(β - α) u / (γ Δ)`. -/
theorem C147_mean (h : OnlyCurrent w u) (hk' : w.Hk = some hk) (hΔ : 0 < Δ 0) (hp : WallPath w J X φ Δ)
    (hu : w.alpha * (221100 * |hk| * Δ 0 / 2) < |(w.beta - w.alpha) * u|) :
    Tendsto (fun t => |φ t - φ 0|) atTop atTop ∧
    Tendsto (fun t => X t / t) atTop (𝓝 (u + walkerDrift w.alpha ((w.beta - w.alpha) * u / (221100 * Δ 0)) hk (Δ 0))) := by
  have hq := frame_push h (Δ 0)
  have hu' : w.alpha * |hk| / 2 < |(withoutCurrent w u (Δ 0)).Q * (withoutCurrent w u (Δ 0)).hz| := by
    rw [hq]
    exact not_le.1 fun hc => not_le.2 hu ((threshold hΔ _).1 hc)
  have hp' := (C147_frame h.toSpinTransfer hk' hΔ.ne').1 hp
  refine ⟨(C130_turns (frame_field h (Δ 0)) hk' hp' hu').2, ?_⟩
  have h1 := C139_mean (frame_field h (Δ 0)) hk' hp' hu'
  rw [hq, show (withoutCurrent w u (Δ 0)).alpha = w.alpha from rfl] at h1
  refine (h1.const_add u).congr' ?_
  filter_upwards [eventually_ne_atTop 0] with t ht
  field_simp
  ring

/-- C147. Without the nonadiabatic term (`β = 0`) the anisotropy holds the wall up to `γ |hk| Δ / 2`; beyond it the mean velocity is
`√(u² - (γ hk Δ / 2)²) / (1 + α²)` in the direction of `u`. -/
theorem C147_intrinsic (h : OnlyCurrent w u) (hk' : w.Hk = some hk) (hΔ : 0 < Δ 0) (hp : WallPath w J X φ Δ) (hβ : w.beta = 0) :
    (|u| ≤ 221100 * |hk| * Δ 0 / 2 → ∃ v : ℝ → ℝ, (∀ t, HasDerivAt X (v t) t) ∧ Tendsto v atTop (𝓝 0)) ∧
    (221100 * |hk| * Δ 0 / 2 < |u| →
      Tendsto (fun t => X t / t) atTop (𝓝 (SignType.sign u * (√(u ^ 2 - (221100 * hk * Δ 0 / 2) ^ 2) / (1 + w.alpha ^ 2))))) := by
  have hα := h.damping
  have e : |(w.beta - w.alpha) * u| = w.alpha * |u| := by rw [hβ, zero_sub, neg_mul, abs_neg, abs_mul, abs_of_pos hα]
  constructor
  · intro hu
    obtain ⟨-, v, h1, h2⟩ := C147_settles h hk' hΔ hp (by rw [e]; exact mul_le_mul_of_nonneg_left hu hα.le)
    rw [hβ, zero_div, zero_mul] at h2
    exact ⟨v, h1, h2⟩
  · intro hu
    have h1 := (C147_mean h hk' hΔ hp (by rw [e]; exact mul_lt_mul_of_pos_left hu hα)).2
    have hc : 0 < w.alpha / (221100 * Δ 0) := by positivity
    have hf : (w.beta - w.alpha) * u / (221100 * Δ 0) = -(w.alpha / (221100 * Δ 0) * u) := by rw [hβ]; ring
    have hs : (SignType.sign (-(w.alpha / (221100 * Δ 0) * u)) : SignType) = -SignType.sign u := by
      rw [Left.sign_neg, sign_mul, sign_pos hc, one_mul]
    have hr : √((-(w.alpha / (221100 * Δ 0) * u)) ^ 2 - (w.alpha * hk / 2) ^ 2) =
        w.alpha / (221100 * Δ 0) * √(u ^ 2 - (221100 * hk * Δ 0 / 2) ^ 2) := by
      rw [← Real.sqrt_sq hc.le, ← Real.sqrt_mul (sq_nonneg _), Real.sqrt_sq hc.le]
      congr 1
      field_simp
    rw [hf, walkerDrift, hs, hr] at h1
    convert h1 using 2
    have hd := hΔ.ne'
    have : (1 + w.alpha ^ 2) ≠ 0 := by positivity
    rw [show ((-SignType.sign u : SignType) : ℝ) = -(SignType.sign u : ℝ) by rcases SignType.sign u <;> simp]
    field_simp
    ring

/-- C147. Beyond the threshold there is a path from every position and angle. -/
theorem C147_exists (h : OnlyCurrent w u) (hk' : w.Hk = some hk) (J : ℝ) {d : ℝ} (hd : 0 < d)
    (hu : w.alpha * (221100 * |hk| * d / 2) < |(w.beta - w.alpha) * u|) (x p : ℝ) :
    ∃ X φ Δ, WallPath w J X φ Δ ∧ X 0 = x ∧ φ 0 = p ∧ Δ 0 = d := by
  have hu' : w.alpha * |hk| / 2 < |(withoutCurrent w u d).Q * (withoutCurrent w u d).hz| := by
    rw [frame_push h d]
    exact not_le.1 fun hc => not_le.2 hu ((threshold hd _).1 hc)
  obtain ⟨X, φ, Δ, hp, h1, h2, h3⟩ := C139_exists (frame_field h d) hk' hu' J x p d
  refine ⟨fun t => X t + u * t, φ, Δ, ?_, by simp [h1], h2, h3⟩
  refine (C147_frame h.toSpinTransfer hk' (by rw [h3]; exact hd.ne')).2 ?_
  simpa [h3] using hp

theorem current_only (u : ℝ) : OnlyCurrent { wall with hz := 0, Hk := some (6 / 221100), beta := 0, bj := u, je := fun _ => 1 } u :=
  ⟨⟨fun _ => by simp, rfl, rfl, rfl, rfl, by simp [wall], .inl rfl⟩, rfl, rfl, rfl, rfl, by norm_num [wall], by simp [wall]⟩

/-- A wall with the threshold 3: the spin transfer 5 moves it at `(4/5) √(25 - 9)` on average. -/
example (J : ℝ) : ∃ X φ Δ, WallPath { wall with hz := 0, Hk := some (6 / 221100), beta := 0, bj := 5, je := fun _ => 1 } J X φ Δ ∧ 0 < Δ 0 ∧
    Tendsto (fun t => X t / t) atTop (𝓝 (16 / 5)) := by
  have hα : wall.alpha = 1 / 2 := by norm_num [wall]
  obtain ⟨X, φ, Δ, hp, -, -, h3⟩ := C147_exists (current_only 5) rfl J one_pos (by norm_num [hα, abs_of_pos]) 0 0
  refine ⟨X, φ, Δ, hp, by rw [h3]; norm_num, ?_⟩
  have := (C147_intrinsic (current_only 5) rfl (by rw [h3]; norm_num) hp rfl).2 (by rw [h3]; norm_num [abs_of_pos])
  have hs : √(16 : ℝ) = 4 := by
    rw [show (16 : ℝ) = 4 ^ 2 by norm_num]
    exact Real.sqrt_sq (by norm_num)
  rw [h3, sign_pos (by norm_num)] at this
  norm_num [hα, hs] at this
  exact this

/-- The spin transfer 3 does not move it. -/
example (J : ℝ) : ∃ p, WallPath { wall with hz := 0, Hk := some (6 / 221100), beta := 0, bj := 3, je := fun _ => 1 } J (fun _ => 0) (fun _ => p)
    fun _ => 1 := by
  have hα : wall.alpha = 1 / 2 := by norm_num [wall]
  have h := fun t => C147_steady (current_only 3) rfl J t 0 one_pos
  obtain ⟨p, v, e⟩ := (h 0).1.2 (by norm_num [hα, abs_of_pos])
  have hv := (h 0).2 p v e
  rw [show v = 0 by rw [hv]; simp] at e
  exact ⟨p, fun t => ⟨0, 0, 0, e, hasDerivAt_const _ _, hasDerivAt_const _ _, hasDerivAt_const _ _⟩⟩

end Domain
