import Verif.Props.WallEnergy
import Mathlib.Analysis.SpecialFunctions.Trigonometric.ArctanDeriv
import Mathlib.Algebra.Ring.Periodic

set_option linter.unusedSectionVars false
set_option linter.unusedSimpArgs false

/-!
# C144: pinned walls are held up to the depinning field

A wall without currents in a periodic pinning potential. Up to the amplitude of the pinning field there are places at which the wall
can rest, and wells that it does not leave; beyond, it travels or turns forever. The amplitude is that of the field in the code, which
lacks the division by the period (`C76_pinning_refuted`).
-/

namespace Spec
open Domain

/-- The amplitude, with its sign, of the pinning field. -/
noncomputable def pinningStrength (w : Wall ℝ) : ℝ := Real.pi * w.V0pin / (2 * mu0 * w.Ms * w.Lz * w.Ly)

/-- The wall feels the pinning and no edges, and its orientation is `Q = 1` or `Q = -1`. -/
structure PinnedOnly (w : Wall ℝ) : Prop extends LeftAlone w where
  edgeless : w.V0edge = 0
  oriented : w.Q = 1 ∨ w.Q = -1

/-- The place `X` and the angle `φ` lie in a well between `X₁` and `X₂`: their energy is less than that of every angle at
both ends. -/
def InWallWell (w : Wall ℝ) (hk Δ X₁ X₂ X φ : ℝ) : Prop :=
  X₁ < X ∧ X < X₂ ∧ ∀ ψ, wallEnergy w hk Δ X φ < wallEnergy w hk Δ X₁ ψ ∧ wallEnergy w hk Δ X φ < wallEnergy w hk Δ X₂ ψ

end Spec

open Spec Filter Topology

namespace Domain

variable {w : Wall ℝ}

theorem pinning_sine (w : Wall ℝ) (X : ℝ) :
    pinningField X w.Ms w.pinning w.Ly w.Lz w.V0pin = -(pinningStrength w * Real.sin (2 * (Real.pi * X / w.pinning))) := by
  simp only [pinningField, pinningStrength, Scalar.sin_real, Scalar.cos_real, Scalar.pi_real, Scalar.ofNat_real, Scalar.ofSci_real_true]
  rw [Real.sin_two_mul, show X * Real.pi = Real.pi * X by ring]
  push_cast
  norm_num
  ring

theorem edge_none (w : Wall ℝ) (h : w.V0edge = 0) (X : ℝ) : edgeField X w.Lx w.V0edge = 0 := by
  simp [edgeField, h]

/-- helper: the equations with the slope `a` of the energy along the angle -/
theorem pinned_rhs (hw : PinnedOnly w) {hk : ℝ} (hk' : w.Hk = some hk) (J t X φ : ℝ) {Δ : ℝ} (hΔ : Δ ≠ 0) :
    ∃ a, HasDerivAt (fun ψ => wallEnergy w hk Δ X ψ) a φ ∧ (Walls.mk [w] J).rhs t [X, φ, Δ] =
      .ok [Δ * (gyro / (1 + w.alpha ^ 2)) * (a + w.alpha * w.Q * (w.hz - pinningStrength w * Real.sin (2 * (Real.pi * X / w.pinning)))),
        gyro / (1 + w.alpha ^ 2) * (w.Q * (w.hz - pinningStrength w * Real.sin (2 * (Real.pi * X / w.pinning))) - w.alpha * a), 0] := by
  obtain ⟨a, b, ha, hb, e1, e2⟩ := dynamics_alone hw.toLeftAlone hk X φ 0 t hΔ
  have hb' := (energy_slopes w hw.period hk Δ X φ).2
  obtain rfl := hb.unique hb'
  refine ⟨a, ha, ?_⟩
  have hd : 1 + w.alpha ^ 2 ≠ 0 := by positivity
  rw [rhs_one w J t X φ Δ hk hk', e1, e2, if_neg hw.static, edge_none w hw.edgeless, pinning_sine]
  simp only [Except.ok.injEq, List.cons.injEq, and_true]
  constructor <;> field_simp <;> ring

/-- helper: an angle of least energy, the same everywhere -/
theorem calm_angle (w : Wall ℝ) (hk Δ : ℝ) (hp : w.pinning ≠ 0) : ∃ φ, (∀ X ψ, wallEnergy w hk Δ X φ ≤ wallEnergy w hk Δ X ψ) ∧
    ∀ X, HasDerivAt (fun ψ => wallEnergy w hk Δ X ψ) 0 φ := by
  have hper : Function.Periodic (fun ψ => wallEnergy w hk Δ 0 ψ) (2 * Real.pi) := by
    intro ψ
    simp only [wallEnergy, Real.cos_add_two_pi, Real.sin_add_two_pi]
    rw [show 2 * (ψ + 2 * Real.pi) = 2 * ψ + 2 * Real.pi + 2 * Real.pi by ring, Real.cos_add_two_pi, Real.cos_add_two_pi]
  have hc : Continuous fun ψ => wallEnergy w hk Δ 0 ψ :=
    continuous_iff_continuousAt.2 fun ψ => (energy_slopes w hp hk Δ 0 ψ).1.continuousAt
  obtain ⟨φ, -, hmin⟩ := isCompact_Icc.exists_isMinOn (s := Set.Icc 0 (2 * Real.pi)) ⟨0, le_rfl, Real.two_pi_pos.le⟩ hc.continuousOn
  have hle : ∀ ψ, wallEnergy w hk Δ 0 φ ≤ wallEnergy w hk Δ 0 ψ := by
    intro ψ
    obtain ⟨y, hy, e⟩ := hper.exists_mem_Ico₀ Real.two_pi_pos ψ
    have := hmin (Set.Ico_subset_Icc_self hy)
    exact le_of_le_of_eq this e.symm
  have hle' : ∀ X ψ, wallEnergy w hk Δ X φ ≤ wallEnergy w hk Δ X ψ := by
    intro X ψ
    have e := energy_split w hk Δ X 0 φ ψ
    have := hle ψ
    linarith
  refine ⟨φ, hle', fun X => ?_⟩
  have hd := (energy_slopes w hp hk Δ X φ).1
  have hz := IsLocalMin.hasDerivAt_eq_zero (f := fun ψ => wallEnergy w hk Δ X ψ) (.of_forall fun ψ => hle' X ψ) hd
  rwa [hz] at hd

theorem orient_sq (hw : PinnedOnly w) : w.Q ^ 2 = 1 := by rcases hw.oriented with h | h <;> rw [h] <;> norm_num

/-- C144: a wall can rest somewhere if and only if the field is at most the depinning field. -/
theorem C144_rest (hw : PinnedOnly w) {hk : ℝ} (hk' : w.Hk = some hk) (J t : ℝ) {Δ : ℝ} (hΔ : Δ ≠ 0) :
    (∃ X φ, (Walls.mk [w] J).rhs t [X, φ, Δ] = .ok [0, 0, 0]) ↔ |w.hz| ≤ |pinningStrength w| := by
  have hQ := orient_sq hw
  have hg : gyro / (1 + w.alpha ^ 2) ≠ 0 := by have := gyro_pos; positivity
  constructor
  · rintro ⟨X, φ, h⟩
    obtain ⟨a, -, e⟩ := pinned_rhs hw hk' J t X φ hΔ
    rw [e] at h
    simp only [Except.ok.injEq, List.cons.injEq, and_true, mul_eq_zero, hΔ, hg, false_or] at h
    obtain ⟨h1, h2⟩ := h
    set F := w.hz - pinningStrength w * Real.sin (2 * (Real.pi * X / w.pinning)) with hF
    have h3 : (1 + w.alpha ^ 2) * F = 0 := by linear_combination w.alpha * w.Q * h1 + w.Q * h2 - (1 + w.alpha ^ 2) * F * hQ
    have h4 : F = 0 := (mul_eq_zero.1 h3).resolve_left (by positivity)
    rw [show w.hz = pinningStrength w * Real.sin (2 * (Real.pi * X / w.pinning)) by linarith, abs_mul]
    exact mul_le_of_le_one_right (abs_nonneg _) (Real.abs_sin_le_one _)
  · intro h
    obtain ⟨φ, -, hφ⟩ := calm_angle w hk Δ hw.period
    obtain ⟨X, hX⟩ : ∃ X, pinningStrength w * Real.sin (2 * (Real.pi * X / w.pinning)) = w.hz := by
      rcases eq_or_ne (pinningStrength w) 0 with e | e
      · rw [e, abs_zero] at h
        exact ⟨0, by rw [e, zero_mul, abs_nonpos_iff.1 h]⟩
      · have hq : |w.hz / pinningStrength w| ≤ 1 := by rw [abs_div]; exact div_le_one_of_le₀ h (abs_nonneg _)
        refine ⟨w.pinning / Real.pi * (Real.arcsin (w.hz / pinningStrength w) / 2), ?_⟩
        have hp := hw.period
        have hpi := Real.pi_ne_zero
        rw [show 2 * (Real.pi * (w.pinning / Real.pi * (Real.arcsin (w.hz / pinningStrength w) / 2)) / w.pinning) =
          Real.arcsin (w.hz / pinningStrength w) by field_simp, Real.sin_arcsin (abs_le.1 hq).1 (abs_le.1 hq).2]
        field_simp
    refine ⟨X, φ, ?_⟩
    obtain ⟨a, ha, e⟩ := pinned_rhs hw hk' J t X φ hΔ
    rw [ha.unique (hφ X), hX] at e
    rw [e]
    simp

/-- C144: beyond the depinning field the wall travels or turns forever: the sum of the way, in widths and weighted with the damping,
and of the angle grows at no less than a fixed rate. -/
theorem C144_free (hw : PinnedOnly w) {J hk : ℝ} (hk' : w.Hk = some hk) {X φ Δ : ℝ → ℝ} (hp : WallPath w J X φ Δ) (hΔ : Δ 0 ≠ 0)
    {t : ℝ} (ht : 0 ≤ t) : 221100 * (|w.hz| - |pinningStrength w|) * t ≤ |w.alpha * (X t - X 0) / Δ 0 + (φ t - φ 0)| := by
  have hc := width_constant hw.toLeftAlone hp
  have hgy : (gyro : ℝ) = 221100 := by norm_num [gyro]
  have hα : 0 < 1 + w.alpha ^ 2 := by positivity
  set G : ℝ → ℝ := fun s => w.hz - pinningStrength w * Real.sin (2 * (Real.pi * X s / w.pinning)) with hG
  have hd : ∀ s, HasDerivAt (fun s => w.alpha * (X s - X 0) / Δ 0 + (φ s - φ 0)) (221100 * (w.Q * G s)) s := by
    intro s
    obtain ⟨x, p, d, h, hX, hφ, -⟩ := hp s
    rw [hc s] at h
    obtain ⟨a, -, e⟩ := pinned_rhs hw hk' J s (X s) (φ s) hΔ
    rw [e] at h
    simp only [Except.ok.injEq, List.cons.injEq, and_true] at h
    refine ((((hX.sub_const (X 0)).const_mul w.alpha).div_const (Δ 0)).add (hφ.sub_const (φ 0))).congr_deriv ?_
    rw [← h.1, ← h.2.1, hgy, hG]
    field_simp
    ring
  -- a sign times the sum grows at the rate
  have hQ := orient_sq hw
  obtain ⟨σ, hσ, hσz⟩ : ∃ σ : ℝ, σ ^ 2 = 1 ∧ σ * w.hz = |w.hz| := by
    rcases abs_cases w.hz with ⟨e, -⟩ | ⟨e, -⟩
    · exact ⟨1, by norm_num, by rw [e, one_mul]⟩
    · exact ⟨-1, by norm_num, by rw [e]; ring⟩
  have hsa : |σ| = 1 := by rw [← Real.sqrt_sq_eq_abs, hσ, Real.sqrt_one]
  have hQa : |w.Q| = 1 := by rw [← Real.sqrt_sq_eq_abs, hQ, Real.sqrt_one]
  set c := 221100 * (|w.hz| - |pinningStrength w|) with hcd
  have hm : Monotone fun s => σ * w.Q * (w.alpha * (X s - X 0) / Δ 0 + (φ s - φ 0)) - c * s := by
    refine monotone_of_deriv_nonneg (fun s => ?_) fun s => ?_
    · exact (((hd s).const_mul (σ * w.Q)).sub ((hasDerivAt_id s).const_mul c)).differentiableAt
    · have hds : HasDerivAt (fun s => σ * w.Q * (w.alpha * (X s - X 0) / Δ 0 + (φ s - φ 0)) - c * s)
          (σ * w.Q * (221100 * (w.Q * G s)) - c * 1) s := ((hd s).const_mul (σ * w.Q)).sub ((hasDerivAt_id s).const_mul c)
      rw [hds.deriv, mul_one]
      have e : σ * w.Q * (221100 * (w.Q * G s)) = 221100 * (|w.hz| - σ * (pinningStrength w *
          Real.sin (2 * (Real.pi * X s / w.pinning)))) := by
        rw [← hσz, hG]
        linear_combination 221100 * σ * (w.hz - pinningStrength w * Real.sin (2 * (Real.pi * X s / w.pinning))) * hQ
      have h1 : σ * (pinningStrength w * Real.sin (2 * (Real.pi * X s / w.pinning))) ≤ |pinningStrength w| := by
        refine (le_abs_self _).trans ?_
        rw [abs_mul, hsa, one_mul, abs_mul]
        exact mul_le_of_le_one_right (abs_nonneg _) (Real.abs_sin_le_one _)
      rw [e, hcd]
      linarith
  have h := hm ht
  simp only [sub_self, mul_zero, zero_div, add_zero] at h
  have h2 : σ * w.Q * (w.alpha * (X t - X 0) / Δ 0 + (φ t - φ 0)) ≤ |w.alpha * (X t - X 0) / Δ 0 + (φ t - φ 0)| := by
    refine (le_abs_self _).trans ?_
    rw [abs_mul, abs_mul, hsa, hQa, one_mul, one_mul]
  linarith

/-- C144: a wall in a well stays in it. -/
theorem C144_held (hw : LeftAlone w) {J hk : ℝ} (hk' : w.Hk = some hk) {X φ Δ : ℝ → ℝ} (hp : WallPath w J X φ Δ) (hΔ : Δ 0 ≠ 0)
    {X₁ X₂ : ℝ} (h : InWallWell w hk (Δ 0) X₁ X₂ (X 0) (φ 0)) {t : ℝ} (ht : 0 ≤ t) : X₁ < X t ∧ X t < X₂ := by
  have hc := width_constant hw hp
  have hcont : Continuous X := continuous_iff_continuousAt.2 fun s => by
    obtain ⟨x, p, d, -, hX, -, -⟩ := hp s
    exact hX.continuousAt
  have hE : ∀ s, 0 ≤ s → wallEnergy w hk (Δ 0) (X s) (φ s) ≤ wallEnergy w hk (Δ 0) (X 0) (φ 0) := by
    intro s hs
    have := C129_decreases hw hk' hp hΔ hs
    simpa only [hc s] using this
  constructor
  · by_contra hcon
    obtain ⟨s, hs, e⟩ := intermediate_value_Icc' ht hcont.continuousOn ⟨not_lt.1 hcon, h.1.le⟩
    have h1 := hE s hs.1
    rw [e] at h1
    exact absurd (h.2.2 (φ s)).1 (not_lt.2 h1)
  · by_contra hcon
    obtain ⟨s, hs, e⟩ := intermediate_value_Icc ht hcont.continuousOn ⟨h.2.1.le, not_lt.1 hcon⟩
    have h1 := hE s hs.1
    rw [e] at h1
    exact absurd (h.2.2 (φ s)).2 (not_lt.2 h1)

/-- helper: a function that falls at `p` and rises at a later `q` is less in between than at both -/
theorem dip {f : ℝ → ℝ} {p q a b : ℝ} (hf : Continuous f) (hpq : p < q) (hp : HasDerivAt f a p) (ha : a < 0) (hq : HasDerivAt f b q)
    (hb : 0 < b) : ∃ x, p < x ∧ x < q ∧ f x < f p ∧ f x < f q := by
  obtain ⟨x, hx, hmin⟩ := isCompact_Icc.exists_isMinOn (s := Set.Icc p q) ⟨p, le_rfl, hpq.le⟩ hf.continuousOn
  have h1 : f x < f p := by
    have hs := (hasDerivAt_iff_tendsto_slope.1 hp).eventually (gt_mem_nhds ha)
    have hs := hs.filter_mono (nhdsWithin_mono p fun y (hy : p < y) => ne_of_gt hy : nhdsWithin p (Set.Ioi p) ≤ nhdsWithin p {p}ᶜ)
    have hlt : ∀ᶠ y in nhdsWithin p (Set.Ioi p), y < q := (gt_mem_nhds hpq).filter_mono nhdsWithin_le_nhds
    obtain ⟨y, ⟨hy1, hy2⟩, hy3⟩ := ((hs.and self_mem_nhdsWithin).and hlt).exists
    have hy2 : p < y := hy2
    rw [slope_def_field, div_lt_iff₀ (sub_pos.2 hy2), zero_mul, sub_neg] at hy1
    exact lt_of_le_of_lt (hmin ⟨hy2.le, hy3.le⟩) hy1
  have h2 : f x < f q := by
    have hs := (hasDerivAt_iff_tendsto_slope.1 hq).eventually (lt_mem_nhds hb)
    have hs := hs.filter_mono (nhdsWithin_mono q fun y (hy : y < q) => ne_of_lt hy : nhdsWithin q (Set.Iio q) ≤ nhdsWithin q {q}ᶜ)
    have hlt : ∀ᶠ y in nhdsWithin q (Set.Iio q), p < y := (lt_mem_nhds hpq).filter_mono nhdsWithin_le_nhds
    obtain ⟨y, ⟨hy1, hy2⟩, hy3⟩ := ((hs.and self_mem_nhdsWithin).and hlt).exists
    have hy2 : y < q := hy2
    have : f y < f q := by
      rw [slope_def_field, lt_div_iff_of_neg (sub_neg.2 hy2), zero_mul, sub_neg] at hy1
      exact hy1
    exact lt_of_le_of_lt (hmin ⟨hy3.le, hy2.le⟩) this
  refine ⟨x, lt_of_le_of_ne hx.1 fun e => ?_, lt_of_le_of_ne hx.2 fun e => ?_, h1, h2⟩
  · rw [← e] at h1; exact lt_irrefl _ h1
  · rw [e] at h2; exact lt_irrefl _ h2

/-- C144: below the depinning field every stretch of one and a half periods holds a well. -/
theorem C144_wells (hw : PinnedOnly w) (hk : ℝ) {Δ : ℝ} (hΔ : 0 < Δ) (hp : 0 < w.pinning) (h : |w.hz| < |pinningStrength w|) (n : ℤ) :
    ∃ X₁ X₂ X φ, n * w.pinning ≤ X₁ ∧ X₂ ≤ (n + 3 / 2) * w.pinning ∧ InWallWell w hk Δ X₁ X₂ X φ := by
  obtain ⟨φ, hφ, -⟩ := calm_angle w hk Δ hp.ne'
  have hslope : ∀ X, HasDerivAt (fun Y => wallEnergy w hk Δ Y φ)
      (-(w.Q / Δ * (w.hz - pinningStrength w * Real.sin (2 * (Real.pi * X / w.pinning))))) X := by
    intro X
    have := (energy_slopes w hp.ne' hk Δ X φ).2
    rwa [edge_none w hw.edgeless, pinning_sine, add_zero, ← sub_eq_add_neg] at this
  have hcont : Continuous fun Y => wallEnergy w hk Δ Y φ := continuous_iff_continuousAt.2 fun X => (hslope X).continuousAt
  have hsin : ∀ (m : ℤ), Real.sin (2 * (Real.pi * ((n + m / 2 + 1 / 4) * w.pinning) / w.pinning)) = (-1) ^ m := by
    intro m
    rw [show 2 * (Real.pi * ((n + m / 2 + 1 / 4) * w.pinning) / w.pinning) = Real.pi / 2 + m * Real.pi + n * (2 * Real.pi) by
      field_simp; ring, Real.sin_add_int_mul_two_pi, Real.sin_add_int_mul_pi, Real.sin_pi_div_two, mul_one]
  obtain ⟨hl, hr⟩ := abs_lt.1 h
  have well : ∀ m : ℤ, 0 ≤ m → m ≤ 1 → 0 < w.Q * (w.hz - pinningStrength w * (-1) ^ m) →
      w.Q * (w.hz - pinningStrength w * (-1) ^ (m + 1)) < 0 →
      ∃ X₁ X₂ X φ, n * w.pinning ≤ X₁ ∧ X₂ ≤ (n + 3 / 2) * w.pinning ∧ InWallWell w hk Δ X₁ X₂ X φ := by
    intro m h0 h1 ha hb
    have d1 := hslope ((n + m / 2 + 1 / 4) * w.pinning)
    have d2 := hslope ((n + (m + 1 : ℤ) / 2 + 1 / 4) * w.pinning)
    rw [hsin, div_mul_eq_mul_div] at d1 d2
    have h0' : (0 : ℝ) ≤ m := by exact_mod_cast h0
    have h1' : (m : ℝ) ≤ 1 := by exact_mod_cast h1
    obtain ⟨X, hX1, hX2, e1, e2⟩ := dip hcont (by push_cast; nlinarith) d1 (neg_neg_of_pos (div_pos ha hΔ)) d2
      (neg_pos_of_neg (div_neg_of_neg_of_pos hb hΔ))
    refine ⟨_, _, X, φ, ?_, ?_, hX1, hX2, fun ψ => ⟨e1.trans_le (hφ _ ψ), e2.trans_le (hφ _ ψ)⟩⟩
    · nlinarith
    · push_cast; nlinarith
  have hs : ∀ x y : ℝ, |x| < |y| → (0 < x - y ∧ x + y < 0) ∨ (x - y < 0 ∧ 0 < x + y) := by
    intro x y hxy
    rcases abs_cases x with ⟨e, -⟩ | ⟨e, -⟩ <;> rcases abs_cases y with ⟨e', -⟩ | ⟨e', -⟩ <;> rw [e, e'] at hxy <;>
      first
      | (right; constructor <;> linarith [abs_nonneg x])
      | (left; constructor <;> linarith [abs_nonneg x])
  rcases hw.oriented with hQ | hQ <;> rcases hs _ _ h with ⟨ha, hb⟩ | ⟨ha, hb⟩
  · refine well 0 le_rfl (by norm_num) ?_ ?_ <;> rw [hQ] <;> norm_num <;> linarith
  · refine well 1 (by norm_num) le_rfl ?_ ?_ <;> rw [hQ] <;> norm_num <;> linarith
  · refine well 1 (by norm_num) le_rfl ?_ ?_ <;> rw [hQ] <;> norm_num <;> linarith
  · refine well 0 le_rfl (by norm_num) ?_ ?_ <;> rw [hQ] <;> norm_num <;> linarith

/-! A pinned wall without anisotropy whose depinning field is `π / 2`. -/

noncomputable def pinnedWall (h : ℝ) : Wall ℝ :=
  { wall with
    hz := h
    V0pin := mu0
    Hk := some 0 }

theorem pinnedWall_only (h : ℝ) : PinnedOnly (pinnedWall h) :=
  ⟨⟨fun _ => rfl, rfl, by norm_num [pinnedWall, wall], by simp [pinnedWall, wall], by norm_num [pinnedWall, wall]⟩, rfl, .inl rfl⟩

theorem pinnedWall_strength (h : ℝ) : pinningStrength (pinnedWall h) = Real.pi / 2 := by
  have := mu0_pos.ne'
  simp only [pinningStrength, pinnedWall, wall]
  field_simp

theorem pinnedWall_path (h J : ℝ) {X : ℝ → ℝ}
    (hX : ∀ t, HasDerivAt X (221100 * (2 / 5) * (h - Real.pi / 2 * Real.sin (2 * (Real.pi * X t)))) t) :
    WallPath (pinnedWall h) J X (fun t => 2 * X t) fun _ => 1 := by
  intro t
  obtain ⟨a, ha, e⟩ := pinned_rhs (pinnedWall_only h) (hk := 0) rfl J t (X t) (2 * X t) one_ne_zero
  have ha' : HasDerivAt (fun ψ => wallEnergy (pinnedWall h) 0 1 (X t) ψ) 0 (2 * X t) := by
    simp only [wallEnergy, pinnedWall, wall, zero_div, zero_mul, mul_zero, add_zero, sub_zero]
    exact hasDerivAt_const _ _
  rw [ha.unique ha', pinnedWall_strength] at e
  have hg : (gyro : ℝ) = 221100 := by norm_num [gyro]
  refine ⟨_, _, _, e, (hX t).congr_deriv ?_, ((hX t).const_mul 2).congr_deriv ?_, hasDerivAt_const t 1⟩ <;>
    rw [hg] <;> simp only [pinnedWall, wall, div_one] <;> ring

/-- Without field the wall moves to the bottom of its well, which it does not leave. -/
example (J : ℝ) : ∃ X φ : ℝ → ℝ, WallPath (pinnedWall 0) J X φ (fun _ => 1) ∧ X 0 = 1 / 4 ∧
    InWallWell (pinnedWall 0) 0 1 (-1 / 2) (1 / 2) (X 0) (φ 0) ∧ Tendsto X atTop (𝓝 0) := by
  set c : ℝ := 221100 * (2 / 5) * Real.pi ^ 2 with hc
  have hcp : 0 < c := by positivity
  have hpi := Real.pi_pos
  have h0 : 1 / Real.pi * Real.arctan (Real.exp (-c * 0)) = 1 / 4 := by
    rw [mul_zero, Real.exp_zero, Real.arctan_one]
    field_simp
  refine ⟨fun t => 1 / Real.pi * Real.arctan (Real.exp (-c * t)), _, pinnedWall_path 0 J (fun t => ?_), h0, ?_, ?_⟩
  · have h1 : HasDerivAt (fun t : ℝ => -c * t) (-c) t := by simpa using (hasDerivAt_id t).const_mul (-c)
    refine (h1.exp.arctan.const_mul (1 / Real.pi)).congr_deriv ?_
    set u := Real.exp (-c * t)
    have hp : 0 < 1 + u ^ 2 := by positivity
    rw [show 2 * (Real.pi * (1 / Real.pi * Real.arctan u)) = 2 * Real.arctan u by field_simp, Real.sin_two_mul, Real.sin_arctan,
      Real.cos_arctan]
    have hq : √(1 + u ^ 2) ^ 2 = 1 + u ^ 2 := Real.sq_sqrt hp.le
    have hn : √(1 + u ^ 2) ≠ 0 := (Real.sqrt_pos.2 hp).ne'
    rw [hc]
    field_simp
    rw [hq]
    field_simp
    ring
  · have hm := mu0_pos
    have e : ∀ X ψ, wallEnergy (pinnedWall 0) 0 1 X ψ = 1 / 2 * Real.sin (Real.pi * X) ^ 2 := by
      intro X ψ
      simp only [wallEnergy, pinnedWall, wall, edgePotential, pinPotential]
      field_simp
      ring
    refine ⟨by dsimp only; rw [h0]; norm_num, by dsimp only; rw [h0]; norm_num, fun ψ => ?_⟩
    simp only [e, h0]
    have s4 : Real.sin (Real.pi * (1 / 4)) ^ 2 = 1 / 2 := by
      rw [show Real.pi * (1 / 4) = Real.pi / 4 by ring, Real.sin_pi_div_four, div_pow, Real.sq_sqrt] <;> norm_num
    have s1 : Real.sin (Real.pi * (-1 / 2)) = -1 := by
      rw [show Real.pi * (-1 / 2) = -(Real.pi / 2) by ring, Real.sin_neg, Real.sin_pi_div_two]
    have s2 : Real.sin (Real.pi * (1 / 2)) = 1 := by rw [show Real.pi * (1 / 2) = Real.pi / 2 by ring, Real.sin_pi_div_two]
    rw [s4, s1, s2]
    norm_num
  · have h1 : Tendsto (fun t : ℝ => -c * t) atTop atBot := tendsto_id.const_mul_atTop_of_neg (neg_neg_of_pos hcp)
    have h2 := ((Real.continuous_arctan.tendsto 0).comp (Real.tendsto_exp_atBot.comp h1)).const_mul (1 / Real.pi)
    simpa using h2

/-- A field of five quarters of the depinning field: the wall slides over the pinning, now faster, now slower. -/
example (J : ℝ) : ∃ X φ : ℝ → ℝ, WallPath (pinnedWall (5 / 8 * Real.pi)) J X φ (fun _ => 1) ∧
    |pinningStrength (pinnedWall (5 / 8 * Real.pi))| < |(pinnedWall (5 / 8 * Real.pi)).hz| := by
  have hpi := Real.pi_pos
  set ω : ℝ := 2 * Real.pi * (221100 * (2 / 5)) * (5 / 8 * Real.pi) * (3 / 5) with hω
  refine ⟨fun t => 1 / (2 * Real.pi) * (ω * t + 2 * Real.arctan (Real.cos (ω * t) / (2 + Real.sin (ω * t)))), _,
    pinnedWall_path _ J (fun t => ?_), ?_⟩
  · have h1 : HasDerivAt (fun t : ℝ => ω * t) ω t := by simpa using (hasDerivAt_id t).const_mul ω
    have hne : 2 + Real.sin (ω * t) ≠ 0 := by have := Real.neg_one_le_sin (ω * t); linarith
    have hsc := Real.sin_sq_add_cos_sq (ω * t)
    refine ((h1.add (((h1.cos.div (h1.sin.const_add 2) hne).arctan).const_mul 2)).const_mul (1 / (2 * Real.pi))).congr_deriv ?_
    rw [show 2 * (Real.pi * (1 / (2 * Real.pi) * (ω * t + 2 * Real.arctan (Real.cos (ω * t) / (2 + Real.sin (ω * t)))))) =
      ω * t + 2 * Real.arctan (Real.cos (ω * t) / (2 + Real.sin (ω * t))) by field_simp]
    set s := Real.sin (ω * t) with hs
    set k := Real.cos (ω * t) with hk
    have hd : 0 < 5 + 4 * s := by have := Real.neg_one_le_sin (ω * t); linarith
    have hd' := hd.ne'
    have hy : 1 + (k / (2 + s)) ^ 2 = (5 + 4 * s) / (2 + s) ^ 2 := by
      field_simp
      linear_combination hsc
    have hsin : Real.sin (ω * t + 2 * Real.arctan (k / (2 + s))) = (5 * s + 4) / (5 + 4 * s) := by
      have hp : 0 < 1 + (k / (2 + s)) ^ 2 := by positivity
      have hq : √(1 + (k / (2 + s)) ^ 2) ^ 2 = 1 + (k / (2 + s)) ^ 2 := Real.sq_sqrt hp.le
      have hn : √(1 + (k / (2 + s)) ^ 2) ≠ 0 := (Real.sqrt_pos.2 hp).ne'
      have e1 : Real.sin (2 * Real.arctan (k / (2 + s))) = 2 * (k / (2 + s)) / (1 + (k / (2 + s)) ^ 2) := by
        rw [Real.sin_two_mul, Real.sin_arctan, Real.cos_arctan]
        generalize √(1 + (k / (2 + s)) ^ 2) = r at hq hn ⊢
        rw [← hq]
        field_simp
      have e2 : Real.cos (2 * Real.arctan (k / (2 + s))) = 2 / (1 + (k / (2 + s)) ^ 2) - 1 := by
        rw [Real.cos_two_mul, Real.cos_sq_arctan]
        ring
      rw [Real.sin_add, e1, e2, hy, ← hs, ← hk]
      clear_value s k
      generalize hD : 5 + 4 * s = D at hd' ⊢
      field_simp
      linear_combination (2 * (2 + s)) * hsc + s * hD
    change 1 / (2 * Real.pi) * (ω + 2 * (1 / (1 + (k / (2 + s)) ^ 2) * ((-s * ω * (2 + s) - k * (k * ω)) / (2 + s) ^ 2))) = _
    rw [hsin, hy, show -s * ω * (2 + s) - k * (k * ω) = -(ω * (2 * s + 1)) by linear_combination -ω * hsc, hω]
    field_simp
    ring
  · rw [pinnedWall_strength, abs_of_pos (by positivity)]
    show _ < |5 / 8 * Real.pi|
    rw [abs_of_pos (by positivity)]
    linarith

end Domain
