import Verif.Lemmas.Embed
import Verif.Props.UnitLength

/-! The solver steps of a noiseless junction as one-step schemes for the joint equation of motion. -/

set_option linter.unusedSectionVars false
set_option linter.unusedSimpArgs false
set_option maxSynthPendingDepth 4

namespace Order
open Spec

/-! ### The code computes the specified right-hand side -/

theorem heffV_eq (l : Layer ℝ) (t : ℝ) (m b a : CVec ℝ) (hg : l.Guard) :
    l.heffV t m b a (l.dipV b a) .zero = field l t m b a := by
  obtain ⟨c, hc⟩ := l.heff_ok t m b a .zero hg
  obtain ⟨h1, h2, h3⟩ := Layer.C14_sum l t m b a .zero _ _ hc
  have e : (CVec.zero : CVec ℝ) = ⟨0, 0, 0⟩ := by ext <;> simp
  rw [e] at h1 h2 h3 ⊢
  exact CVec.ext h1 h2 h3

theorem llgV_eq (l : Layer ℝ) (t : ℝ) (m b a : CVec ℝ) (hg : l.Guard) : l.llgV t m b a = motion l t m b a := by
  unfold Layer.llgV Layer.llgDV
  rw [heffV_eq l t m b a hg]
  unfold Layer.solveLLG motion
  rw [Layer.reference_eq_polariser]
  generalize Layer.polariser l b a = p
  generalize field l t m b a = H
  have hden : 1 + l.damping ^ 2 ≠ 0 := by positivity
  unfold spinTorque
  by_cases h1 : l.includeSTT = true
  · rw [if_pos h1]
    simp only [if_pos h1]
    have e1 : l.sttEta m p = sttEfficiency l m p := by
      unfold Layer.sttEta sttEfficiency sttDenominator
      split <;> simp
    have e2 : (Const.hbar * l.currentDriver.value t / (Const.electronCharge * l.Ms * l.thickness) : ℝ) = sttAmplitude l t := by
      unfold sttAmplitude Const.hbar Const.electronCharge
      simp only [Scalar.ofSci_real_true, Scalar.pi_real, Scalar.ofNat_real]
      norm_num
    simp only [e1, e2]
    generalize sttEfficiency l m p = η
    generalize sttAmplitude l t = A
    ext <;>
    · simp only [smul, Const.gyro, CVec.mulr_x, CVec.mulr_y, CVec.mulr_z, CVec.add_x, CVec.add_y, CVec.add_z, CVec.sub_x,
        CVec.sub_y, CVec.sub_z, CVec.cross_x, CVec.cross_y, CVec.cross_z, Scalar.powi_real, Scalar.ofSci_real_true,
        Scalar.ofNat_real, Nat.cast_ofNat, Nat.cast_one]
      norm_num
      field_simp
      ring
  · rw [if_neg h1]
    simp only [if_neg h1]
    by_cases h2 : l.includeSOT = true
    · rw [if_pos h2]
      simp only [if_pos h2]
      have e1 : (if l.dynamicSOT = true then l.fieldLikeTorqueDriver.value t
          else l.fieldLikeTorque * l.currentDriver.value t) = (Layer.sotFields l t).1 := by
        unfold Layer.sotFields; split <;> rfl
      have e2 : (if l.dynamicSOT = true then l.dampingLikeTorqueDriver.value t
          else l.dampingLikeTorque * l.currentDriver.value t) = (Layer.sotFields l t).2 := by
        unfold Layer.sotFields; split <;> rfl
      simp only [e1, e2]
      generalize (Layer.sotFields l t).1 = F
      generalize (Layer.sotFields l t).2 = D
      ext <;>
      · simp only [smul, Const.gyro, CVec.mulr_x, CVec.mulr_y, CVec.mulr_z, CVec.add_x, CVec.add_y, CVec.add_z, CVec.sub_x,
          CVec.sub_y, CVec.sub_z, CVec.cross_x, CVec.cross_y, CVec.cross_z, Scalar.powi_real, Scalar.ofSci_real_true,
          Scalar.ofNat_real, Nat.cast_ofNat, Nat.cast_one]
        norm_num
        field_simp
        ring
    · rw [if_neg h2]
      simp only [if_neg h2]
      ext <;>
      · simp only [smul, Const.gyro, CVec.mulr_x, CVec.mulr_y, CVec.mulr_z, CVec.add_x, CVec.add_y, CVec.add_z, CVec.sub_x,
          CVec.sub_y, CVec.sub_z, CVec.cross_x, CVec.cross_y, CVec.cross_z, Scalar.powi_real, Scalar.ofSci_real_true,
          Scalar.ofNat_real, Nat.cast_ofNat, Nat.cast_one]
        norm_num
        field_simp
        ring

theorem motion_dot (l : Layer ℝ) (t : ℝ) (m b a : CVec ℝ) :
    (motion l t m b a).x * m.x + (motion l t m b a).y * m.y + (motion l t m b a).z * m.z = 0 := by
  unfold motion spinTorque
  generalize field l t m b a = H
  generalize Layer.polariser l b a = p
  split
  · simp only [smul, CVec.sub_x, CVec.sub_y, CVec.sub_z, CVec.cross_x, CVec.cross_y, CVec.cross_z]
    ring
  · split
    · simp only [smul, CVec.sub_x, CVec.sub_y, CVec.sub_z, CVec.cross_x, CVec.cross_y, CVec.cross_z]
      ring
    · simp only [smul, CVec.sub_x, CVec.sub_y, CVec.sub_z, CVec.cross_x, CVec.cross_y, CVec.cross_z]
      ring

/-- a solution keeps its length -/
theorem length_const {l : Layer ℝ} {c b a : ℝ → CVec ℝ} {lo hi : ℝ} (h0 : (0 : ℝ) ∈ Set.Ioo lo hi)
    (hm : ∀ t ∈ Set.Ioo lo hi, Slope c (motion l t (c t) (b t) (a t)) t) (t : ℝ) (ht : t ∈ Set.Ioo lo hi) :
    (c t).length = (c 0).length := by
  rw [CVec.length_eq, CVec.length_eq]
  congr 1
  have hd : ∀ s ∈ Set.Ioo lo hi, HasDerivWithinAt (fun s => (c s).normSq) 0 (Set.Ioo lo hi) s := by
    intro s hs
    obtain ⟨h1, h2, h3⟩ := hm s hs
    have q := ((h1.pow 2).add (h2.pow 2)).add (h3.pow 2)
    refine HasDerivAt.hasDerivWithinAt (q.congr_deriv ?_)
    have := motion_dot l s (c s) (b s) (a s)
    norm_num
    linear_combination 2 * this
  have := (convex_Ioo lo hi).norm_image_sub_le_of_norm_hasDerivWithin_le (C := 0) hd (by simp) h0 ht
  simpa [sub_eq_zero] using this

/-! ### Normalisation -/

theorem renorm {H : Type*} [NormedAddCommGroup H] [InnerProductSpace ℝ H] {z u w : H} (hz : ‖z‖ = 1) (hu : ‖u‖ = 1) {d : ℝ}
    (hw : ‖w - z‖ ≤ d) (hd : d ≤ 1 / 2) : w ≠ 0 ∧ ‖‖w‖⁻¹ • w - u‖ ≤ (1 + 2 * d) * ‖w - u‖ := by
  have hd0 : 0 ≤ d := (norm_nonneg _).trans hw
  have hr : 1 - d ≤ ‖w‖ := by
    have := norm_sub_norm_le z w
    rw [norm_sub_rev] at this
    linarith
  have hr0 : 0 < ‖w‖ := by linarith
  refine ⟨norm_pos_iff.1 hr0, ?_⟩
  set r := ‖w‖ with hrdef
  set c := inner ℝ w u with hc
  have hcr : c ≤ r := by
    have := real_inner_le_norm w u
    rw [hu, mul_one] at this
    exact this
  have e1 : ‖r⁻¹ • w - u‖ ^ 2 = 2 - 2 * c / r := by
    rw [norm_sub_sq_real, norm_smul, real_inner_smul_left, hu, Real.norm_eq_abs, abs_of_pos (inv_pos.2 hr0), ← hrdef, ← hc]
    field_simp
    ring
  have e2 : ‖w - u‖ ^ 2 = r ^ 2 - 2 * c + 1 := by
    rw [norm_sub_sq_real, hu, ← hc, ← hrdef]; ring
  have hcr' : c / r ≤ 1 := (div_le_one hr0).2 hcr
  refine abs_le_of_sq_le_sq' ?_ (by positivity) |>.2
  rw [mul_pow, e1, e2]
  have hpos : 0 ≤ r ^ 2 - 2 * c + 1 := by rw [← e2]; positivity
  have hcd : c = c / r * r := by field_simp
  set q := c / r with hq
  have e3 : 2 * c / r = 2 * q := by rw [hq]; ring
  rw [e3]
  rcases le_total 1 r with h | h
  · have : 2 - 2 * q ≤ r ^ 2 - 2 * c + 1 := by rw [hcd]; nlinarith
    have h1 : (1 : ℝ) ≤ (1 + 2 * d) ^ 2 := by nlinarith
    nlinarith
  · have h1 : r ^ 2 * (2 - 2 * q) ≤ r ^ 2 - 2 * c + 1 := by rw [hcd]; nlinarith [mul_nonneg hr0.le (sub_nonneg.2 h)]
    have h2 : 1 ≤ (1 + 2 * d) * r := by nlinarith
    have h3 : 1 ≤ (1 + 2 * d) ^ 2 * r ^ 2 := by nlinarith
    have h4 : 0 ≤ 2 - 2 * q := by linarith
    calc 2 - 2 * q ≤ (1 + 2 * d) ^ 2 * r ^ 2 * (2 - 2 * q) := le_mul_of_one_le_left h4 h3
      _ = (1 + 2 * d) ^ 2 * (r ^ 2 * (2 - 2 * q)) := by ring
      _ ≤ _ := mul_le_mul_of_nonneg_left h1 (by positivity)

theorem toV_normalize {v : V} (h : v ≠ 0) : toV (ofV v).normalize = ‖v‖⁻¹ • v := by
  have hn : ofV v ≠ .zero := by
    intro e
    apply h
    have := congrArg toV e
    rw [toV_ofV] at this
    rw [this]
    exact V.ext (by simp) (by simp) (by simp)
  have hl : (ofV v).length = ‖v‖ := by rw [← norm_toV, toV_ofV]
  rw [CVec.normalize_of_ne _ hn, hl]
  exact V.ext (by simp [div_eq_inv_mul]) (by simp [div_eq_inv_mul]) (by simp [div_eq_inv_mul])

/-- normalise all magnetisations -/
noncomputable def renormalise {n : Nat} (z : X n) : X n := (z.1, fun i => toV (ofV (z.2 i)).normalize)

/-- all magnetisations have length one -/
def Unit (n : Nat) : Set (X n) := {z | ∀ i, ‖z.2 i‖ = 1}

theorem renormalise_spec {n : Nat} (z : X n) (hz : z ∈ Unit n) (u : X n) (hu : u ∈ Unit n) (w : X n) (hw : ‖w - z‖ ≤ 1 / 2) :
    renormalise w ∈ Unit n ∧ ‖renormalise w - u‖ ≤ (1 + 2 * ‖w - z‖) * ‖w - u‖ := by
  have hi : ∀ i, ‖w.2 i - z.2 i‖ ≤ ‖w - z‖ := fun i =>
    (norm_le_pi_norm (w.2 - z.2) i).trans (norm_snd_le (w - z))
  have key : ∀ i, w.2 i ≠ 0 ∧ ‖‖w.2 i‖⁻¹ • w.2 i - u.2 i‖ ≤ (1 + 2 * ‖w - z‖) * ‖w.2 i - u.2 i‖ := fun i =>
    renorm (hz i) (hu i) (hi i) hw
  constructor
  · intro i
    show ‖toV (ofV (w.2 i)).normalize‖ = 1
    rw [toV_normalize (key i).1, norm_smul, norm_inv, norm_norm, inv_mul_cancel₀ (norm_ne_zero_iff.2 (key i).1)]
  · refine (norm_prod_le_iff).2 ⟨?_, ?_⟩
    · have h1 : ‖(renormalise w - u).1‖ ≤ ‖w - u‖ := norm_fst_le (w - u)
      have : 0 ≤ ‖w - z‖ * ‖w - u‖ := by positivity
      nlinarith
    · refine (pi_norm_le_iff_of_nonneg (by positivity)).2 fun i => ?_
      show ‖toV (ofV (w.2 i)).normalize - u.2 i‖ ≤ _
      rw [toV_normalize (key i).1]
      refine (key i).2.trans (mul_le_mul_of_nonneg_left ?_ (by positivity))
      exact (norm_le_pi_norm (w.2 - u.2) i).trans (norm_snd_le (w - u))

end Order
