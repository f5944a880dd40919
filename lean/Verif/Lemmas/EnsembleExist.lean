import Verif.Lemmas.GroupConv
import Verif.Lemmas.Exist

/-! The coupled equations of motion of a group have solutions for all times. -/

set_option linter.unusedSectionVars false
set_option linter.unusedSimpArgs false
set_option maxSynthPendingDepth 4

namespace Order
open Spec Junction

variable {N : Nat} {n : Fin N → Nat}

noncomputable def clipEach (M : ∀ i : Fin N, Fin (n i) → V) : ∀ i : Fin N, Fin (n i) → V := fun i => clipAll (M i)

theorem clipEach_mem (M : ∀ i : Fin N, Fin (n i) → V) : clipEach M ∈ Metric.closedBall (0 : ∀ i : Fin N, Fin (n i) → V) 1 := by
  rw [mem_closedBall_zero_iff, pi_norm_le_iff_of_nonneg zero_le_one]
  intro i
  rw [pi_norm_le_iff_of_nonneg zero_le_one]
  exact fun k => clip_le _

theorem clipEach_lip (M M' : ∀ i : Fin N, Fin (n i) → V) : ‖clipEach M - clipEach M'‖ ≤ 2 * ‖M - M'‖ := by
  rw [pi_norm_le_iff_of_nonneg (by positivity)]
  intro i
  refine (clipAll_lip (M i) (M' i)).trans ?_
  have := norm_le_pi_norm (M - M') i
  simp only [Pi.sub_apply] at this
  linarith

theorem each_ball {M : ∀ i : Fin N, Fin (n i) → V} (h : M ∈ Metric.closedBall (0 : ∀ i : Fin N, Fin (n i) → V) 1) (i : Fin N) :
    M i ∈ Metric.closedBall (0 : Fin (n i) → V) 1 := by
  rw [mem_closedBall_zero_iff, pi_norm_le_iff_of_nonneg zero_le_one] at h
  rw [mem_closedBall_zero_iff]
  exact h i

theorem clipEach_solution (F : Y n → Y n) (T : ℝ) (hT : 0 ≤ T)
    (hF : ∀ z ∈ Set.Icc (-1) (T + 1) ×ˢ Metric.closedBall (0 : ∀ i : Fin N, Fin (n i) → V) 1, ContDiffAt ℝ 4 F z)
    (M : ∀ i : Fin N, Fin (n i) → V) : ∃ α : ℝ → ∀ i : Fin N, Fin (n i) → V, α 0 = M ∧
      ∀ t ∈ Set.Ioo (-1) (T + 1), HasDerivAt α (F (t, clipEach (α t))).2 t := by
  obtain ⟨K, hK, hb⟩ : ∃ K : ℝ, 0 ≤ K ∧ ∀ z ∈ Set.Icc (-1) (T + 1) ×ˢ Metric.closedBall (0 : ∀ i : Fin N, Fin (n i) → V) 1,
      ContDiffAt ℝ 4 F z ∧ ‖F z‖ ≤ K ∧ ‖D1 F z‖ ≤ K := by
    have hc : IsCompact (Set.Icc (-1) (T + 1) ×ˢ Metric.closedBall (0 : ∀ i : Fin N, Fin (n i) → V) 1) :=
      isCompact_Icc.prod (isCompact_closedBall _ _)
    obtain ⟨ε, K, hε, hm⟩ := reg_of_compact hc hF
    refine ⟨|K|, abs_nonneg K, fun z hz => ?_⟩
    obtain ⟨h0, h1, h2, -⟩ := hm ⟨z, hz⟩ z (by simpa using hε)
    exact ⟨h0, h1.trans (le_abs_self K), h2.trans (le_abs_self K)⟩
  have hconv : Convex ℝ (Set.Icc (-1) (T + 1) ×ˢ Metric.closedBall (0 : ∀ i : Fin N, Fin (n i) → V) 1) :=
    (convex_Icc _ _).prod (convex_closedBall _ _)
  have hlip : ∀ z ∈ Set.Icc (-1) (T + 1) ×ˢ Metric.closedBall (0 : ∀ i : Fin N, Fin (n i) → V) 1,
      ∀ w ∈ Set.Icc (-1) (T + 1) ×ˢ Metric.closedBall (0 : ∀ i : Fin N, Fin (n i) → V) 1, ‖F w - F z‖ ≤ K * ‖w - z‖ := by
    intro z hz w hw
    exact hconv.norm_image_sub_le_of_norm_hasFDerivWithin_le
      (fun u hu => (d1_at (hb u hu).1).hasFDerivWithinAt) (fun u hu => (hb u hu).2.2) hz hw
  have hmem : ∀ t ∈ Set.Icc (-1) (T + 1), ∀ M : ∀ i : Fin N, Fin (n i) → V,
      ((t, clipEach M) : Y n) ∈ Set.Icc (-1) (T + 1) ×ˢ Metric.closedBall (0 : ∀ i : Fin N, Fin (n i) → V) 1 :=
    fun t ht M => ⟨ht, clipEach_mem M⟩
  have h0 : (0 : ℝ) ∈ Set.Icc (-1) (T + 1) := ⟨by norm_num, by linarith⟩
  have hPL : IsPicardLindelof (fun t M => (F (t, clipEach M)).2) (⟨0, h0⟩ : Set.Icc (-1 : ℝ) (T + 1)) M
      (⟨K * max (T + 1 - 0) (0 - -1), by positivity⟩ : NNReal) 0 ⟨K, hK⟩ (⟨K * 2, by positivity⟩ : NNReal) := by
    refine ⟨fun t ht => ?_, fun M _ => ?_, fun t ht M _ => ?_, ?_⟩
    · refine LipschitzOnWith.of_dist_le_mul fun M _ M' _ => ?_
      rw [dist_eq_norm, dist_eq_norm]
      show ‖(F (t, clipEach M)).2 - (F (t, clipEach M')).2‖ ≤ K * 2 * ‖M - M'‖
      have h1 := hlip _ (hmem t ht M') _ (hmem t ht M)
      have h2 : ‖((t, clipEach M) : Y n) - (t, clipEach M')‖ ≤ 2 * ‖M - M'‖ := by
        refine norm_prod_le_iff.2 ⟨?_, clipEach_lip M M'⟩
        simp
      refine (norm_snd_le (F (t, clipEach M) - F (t, clipEach M'))).trans (h1.trans ?_)
      rw [mul_assoc]
      exact mul_le_mul_of_nonneg_left h2 hK
    · intro t ht
      have h1 : ContinuousAt F (t, clipEach M) := (hb _ (hmem t ht M)).1.continuousAt
      have h2 : ContinuousAt (fun s : ℝ => ((s, clipEach M) : Y n)) t := by fun_prop
      exact (continuousAt_snd.comp (ContinuousAt.comp (f := fun s : ℝ => ((s, clipEach M) : Y n)) h1 h2)).continuousWithinAt
    · exact (norm_snd_le (F (t, clipEach M))).trans (hb _ (hmem t ht M)).2.1
    · show K * max (T + 1 - 0) (0 - -1) ≤ K * max (T + 1 - 0) (0 - -1) - 0
      simp
  obtain ⟨α, hα0, hα⟩ := hPL.exists_eq_forall_mem_Icc_hasDerivWithinAt₀
  exact ⟨α, hα0, fun t ht => (hα t ⟨ht.1.le, ht.2.le⟩).hasDerivAt (Icc_mem_nhds ht.1 ht.2)⟩

/-- curves approximated by the same states agree -/
theorem limits_agree {E : Type*} [NormedAddCommGroup E] {z : ℝ → ℕ → E} {y y' : ℝ → E} {T C C' q q' : ℝ} (hq : 0 < q) (hq' : 0 < q')
    (h : ∀ (n : ℕ) (dt : ℝ), 0 ≤ dt → dt ≤ q → n * dt ≤ T → ‖z dt n - y (n * dt)‖ ≤ C * dt)
    (h' : ∀ (n : ℕ) (dt : ℝ), 0 ≤ dt → dt ≤ q' → n * dt ≤ T → ‖z dt n - y' (n * dt)‖ ≤ C' * dt) {t : ℝ} (h0 : 0 ≤ t) (hT : t ≤ T) :
    y t = y' t := by
  rw [← sub_eq_zero, ← norm_le_zero_iff]
  have hlim : Filter.Tendsto (fun n : ℕ => (C + C') * (t / (n : ℝ))) Filter.atTop (nhds 0) := by
    have := (tendsto_const_div_atTop_nhds_zero_nat t).const_mul (C + C')
    rwa [mul_zero] at this
  refine ge_of_tendsto hlim ?_
  obtain ⟨N, hN⟩ := exists_nat_gt (t / min q q')
  filter_upwards [Filter.eventually_ge_atTop (max N 1)] with n hn
  have hn1 : (1 : ℝ) ≤ n := by exact_mod_cast (le_max_right N 1).trans hn
  have hnN : (N : ℝ) ≤ n := by exact_mod_cast (le_max_left N 1).trans hn
  have hmin : 0 < min q q' := lt_min hq hq'
  have hd : t / n ≤ min q q' := by
    rw [div_lt_iff₀ hmin] at hN
    rw [div_le_iff₀ (by linarith)]
    nlinarith
  have e : (n : ℝ) * (t / n) = t := by field_simp
  have a := h n (t / n) (by positivity) (hd.trans (min_le_left _ _)) (by rw [e]; exact hT)
  have b := h' n (t / n) (by positivity) (hd.trans (min_le_right _ _)) (by rw [e]; exact hT)
  rw [e] at a b
  calc ‖y t - y' t‖ = ‖(z (t / n) n - y' t) - (z (t / n) n - y t)‖ := by congr 1; abel
    _ ≤ ‖z (t / n) n - y' t‖ + ‖z (t / n) n - y t‖ := norm_sub_le _ _
    _ ≤ (C + C') * (t / n) := by linarith

variable {W : Type*} [NormedAddCommGroup W] [NormedSpace ℝ W] {P : ∀ i, W → Fin (n i) → Layer ℝ} {c : Fin N → Y n → W}

theorem whole_smooth {z : Y n} (hc : ∀ i, ContDiffAt ℝ 4 (c i) z) (hP : ∀ i, ContDiffAt ℝ 4 (lifted (P i)) (seen c i z)) :
    ContDiffAt ℝ 4 (whole P c) z := by
  have e : whole P c = fun z => ((1 : ℝ), (0 : ∀ i : Fin N, Fin (n i) → V)) + ∑ i, ∑ k, ins (W := W) i k (lifted (P i) (seen c i z)) := by
    funext z; exact whole_parts z
  rw [e]
  refine contDiffAt_const.add (ContDiffAt.sum fun i _ => ContDiffAt.sum fun k _ => ?_)
  exact (ins (W := W) i k).contDiff.contDiffAt.comp z ((hP i).comp z (((sub i).contDiff.contDiffAt).prodMk (hc i)))

theorem clipEach_unit {lo hi : ℝ} (h0 : (0 : ℝ) ∈ Set.Ioo lo hi) {α : ℝ → ∀ i : Fin N, Fin (n i) → V}
    (hα : ∀ t ∈ Set.Ioo lo hi, HasDerivAt α (whole P c (t, clipEach (α t))).2 t) (hu : ∀ i k, ‖α 0 i k‖ = 1) (t : ℝ) (ht : t ∈ Set.Ioo lo hi)
    (i : Fin N) (k : Fin (n i)) : ‖α t i k‖ = 1 := by
  have hd : ∀ s ∈ Set.Ioo lo hi, HasDerivWithinAt (fun s => ‖α s i k‖ ^ 2) 0 (Set.Ioo lo hi) s := by
    intro s hs
    have h1 : HasDerivAt (fun s => α s i k) ((whole P c (s, clipEach (α s))).2 i k) s := hasDerivAt_pi.1 (hasDerivAt_pi.1 (hα s hs) i) k
    refine HasDerivAt.hasDerivWithinAt (h1.norm_sq.congr_deriv ?_)
    have e : inner ℝ (α s i k) ((whole P c (s, clipEach (α s))).2 i k) = 0 := by
      have hc := clip_pos (α s i k)
      have e1 : α s i k = (max 1 ‖α s i k‖) • clip (α s i k) := by
        unfold clip; rw [smul_smul, mul_inv_cancel₀ hc.ne', one_smul]
      rw [e1, real_inner_smul_left]
      refine mul_eq_zero_of_right _ ?_
      have hdot := motion_dot (P i (c i (s, clipEach (α s))) k) s (ofV (clip (α s i k))) (low (clipAll (α s i)) k) (up (clipAll (α s i)) k)
      show inner ℝ (clip (α s i k)) (toV (motion (P i (c i (s, clipEach (α s))) k) s (ofV (clip (α s i k))) (low (clipAll (α s i)) k)
        (up (clipAll (α s i)) k))) = 0
      generalize motion _ _ _ _ _ = w at hdot ⊢
      simp only [PiLp.inner_apply, Fin.sum_univ_three, toV_0, toV_1, toV_2]
      simpa using hdot
    rw [e, mul_zero]
  have := (convex_Ioo lo hi).norm_image_sub_le_of_norm_hasDerivWithin_le (C := 0) hd (by simp) h0 ht
  have e : ‖α t i k‖ ^ 2 = 1 := by
    rw [zero_mul, norm_le_zero_iff, sub_eq_zero] at this
    rw [this, hu, one_pow]
  nlinarith [norm_nonneg (α t i k), sq_nonneg (‖α t i k‖ - 1)]

end Order
