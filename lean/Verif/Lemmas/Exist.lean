import Verif.Lemmas.Conv
import Mathlib.Analysis.ODE.ExistUnique

/-!
The equations of motion have solutions for all times: the right-hand side is cut off outside the unit balls, so that it
is bounded and Lipschitz; the solution of the changed equation keeps its length and hence solves the original one.
-/

set_option linter.unusedSectionVars false
set_option linter.unusedSimpArgs false
set_option maxSynthPendingDepth 4

namespace Order
open Spec Junction

variable {n : Nat}

/-! ### Cutting off -/

noncomputable def clip (v : V) : V := (max 1 ‖v‖)⁻¹ • v

theorem clip_pos (v : V) : 0 < max 1 ‖v‖ := lt_max_of_lt_left one_pos

theorem clip_le (v : V) : ‖clip v‖ ≤ 1 := by
  unfold clip
  rw [norm_smul, Real.norm_eq_abs, abs_of_pos (inv_pos.2 (clip_pos v)), inv_mul_le_iff₀ (clip_pos v), mul_one]
  exact le_max_right _ _

theorem clip_self {v : V} (h : ‖v‖ ≤ 1) : clip v = v := by
  unfold clip
  rw [max_eq_left h, inv_one, one_smul]

theorem clip_lip (u v : V) : ‖clip u - clip v‖ ≤ 2 * ‖u - v‖ := by
  have ha := clip_pos u
  have hb := clip_pos v
  unfold clip
  set a := max 1 ‖u‖ with hadef
  set b := max 1 ‖v‖ with hbdef
  have e : a⁻¹ • u - b⁻¹ • v = a⁻¹ • (u - v) + (a⁻¹ - b⁻¹) • v := by module
  have ha1 : 1 ≤ a := le_max_left _ _
  have hvb : ‖v‖ ≤ b := le_max_right _ _
  have hab : |b - a| ≤ ‖u - v‖ := by
    rw [abs_sub_comm]
    refine (abs_max_sub_max_le_max 1 ‖u‖ 1 ‖v‖).trans ?_
    simp only [sub_self, abs_zero]
    exact max_le (norm_nonneg _) (abs_norm_sub_norm_le u v)
  have h1 : ‖a⁻¹ • (u - v)‖ ≤ ‖u - v‖ := by
    rw [norm_smul, Real.norm_eq_abs, abs_of_pos (inv_pos.2 ha)]
    exact mul_le_of_le_one_left (norm_nonneg _) (inv_le_one_of_one_le₀ ha1)
  have h2 : ‖(a⁻¹ - b⁻¹) • v‖ ≤ ‖u - v‖ := by
    have : a⁻¹ - b⁻¹ = (b - a) / (a * b) := by field_simp
    rw [norm_smul, Real.norm_eq_abs, this, abs_div, abs_of_pos (mul_pos ha hb), div_mul_eq_mul_div, div_le_iff₀ (mul_pos ha hb)]
    have : ‖v‖ ≤ a * b := by nlinarith
    exact mul_le_mul hab this (norm_nonneg _) (norm_nonneg _)
  rw [e]
  linarith [norm_add_le (a⁻¹ • (u - v)) ((a⁻¹ - b⁻¹) • v)]

noncomputable def clipAll (M : Fin n → V) : Fin n → V := fun i => clip (M i)

theorem clipAll_mem (M : Fin n → V) : clipAll M ∈ Metric.closedBall (0 : Fin n → V) 1 := by
  rw [mem_closedBall_zero_iff, pi_norm_le_iff_of_nonneg zero_le_one]
  exact fun i => clip_le _

theorem clipAll_lip (M N : Fin n → V) : ‖clipAll M - clipAll N‖ ≤ 2 * ‖M - N‖ := by
  rw [pi_norm_le_iff_of_nonneg (by positivity)]
  intro i
  refine (clip_lip (M i) (N i)).trans ?_
  have := norm_le_pi_norm (M - N) i
  simp only [Pi.sub_apply] at this
  linarith

/-- the cut-off right-hand side -/
noncomputable def clipped (L : Fin n → Layer ℝ) (t : ℝ) (M : Fin n → V) : Fin n → V := (rhs L (t, clipAll M)).2

/-! ### Existence -/

theorem low_le {M : Fin n → V} (h : M ∈ Metric.closedBall (0 : Fin n → V) 1) (i : Fin n) : (low M i).length ≤ 1 := by
  rw [mem_closedBall_zero_iff, pi_norm_le_iff_of_nonneg zero_le_one] at h
  unfold low
  split
  · rw [← norm_toV, toV_ofV]; exact h _
  · rw [CVec.length_eq]; simp [CVec.normSq]

theorem up_le {M : Fin n → V} (h : M ∈ Metric.closedBall (0 : Fin n → V) 1) (i : Fin n) : (up M i).length ≤ 1 := by
  rw [mem_closedBall_zero_iff, pi_norm_le_iff_of_nonneg zero_le_one] at h
  unfold up
  split
  · rw [← norm_toV, toV_ofV]; exact h _
  · rw [CVec.length_eq]; simp [CVec.normSq]

theorem rhs_bounds (L : Fin n → Layer ℝ) (lo hi : ℝ) (hs : ∀ i, ∀ t ∈ Set.Icc lo hi, Smooth (L i) t)
    (hp : ∀ i, Poleless (L i)) : ∃ K : ℝ, 0 ≤ K ∧ ∀ z ∈ Set.Icc lo hi ×ˢ Metric.closedBall (0 : Fin n → V) 1,
      ContDiffAt ℝ 4 (rhs L) z ∧ ‖rhs L z‖ ≤ K ∧ ‖D1 (rhs L) z‖ ≤ K := by
  have hc : IsCompact (Set.Icc lo hi ×ˢ Metric.closedBall (0 : Fin n → V) 1) :=
    isCompact_Icc.prod (isCompact_closedBall _ _)
  have hd : ∀ z ∈ Set.Icc lo hi ×ˢ Metric.closedBall (0 : Fin n → V) 1, ContDiffAt ℝ 4 (rhs L) z := by
    intro z hz
    have hb := hz.2
    refine rhs_smooth L z (fun i => hs i _ hz.1) fun i => hp i _ _ _ ?_ (low_le hb i) (up_le hb i)
    rw [mem_closedBall_zero_iff, pi_norm_le_iff_of_nonneg zero_le_one] at hb
    rw [← norm_toV, toV_ofV]; exact hb i
  obtain ⟨ε, K, hε, hm⟩ := reg_of_compact hc hd
  refine ⟨|K|, abs_nonneg K, fun z hz => ?_⟩
  obtain ⟨h0, h1, h2, -⟩ := hm ⟨z, hz⟩ z (by simpa using hε)
  exact ⟨h0, h1.trans (le_abs_self K), h2.trans (le_abs_self K)⟩

theorem clipped_solution (L : Fin n → Layer ℝ) (T : ℝ) (hT : 0 ≤ T) (hs : ∀ i t, Smooth (L i) t)
    (hp : ∀ i, Poleless (L i)) (M : Fin n → V) : ∃ α : ℝ → Fin n → V, α 0 = M ∧
      ∀ t ∈ Set.Ioo (-1) (T + 1), HasDerivAt α (clipped L t (α t)) t := by
  obtain ⟨K, hK, hb⟩ := rhs_bounds L (-1) (T + 1) (fun i t _ => hs i t) hp
  have hconv : Convex ℝ (Set.Icc (-1) (T + 1) ×ˢ Metric.closedBall (0 : Fin n → V) 1) :=
    (convex_Icc _ _).prod (convex_closedBall _ _)
  have hlip : ∀ z ∈ Set.Icc (-1) (T + 1) ×ˢ Metric.closedBall (0 : Fin n → V) 1,
      ∀ w ∈ Set.Icc (-1) (T + 1) ×ˢ Metric.closedBall (0 : Fin n → V) 1, ‖rhs L w - rhs L z‖ ≤ K * ‖w - z‖ := by
    intro z hz w hw
    exact hconv.norm_image_sub_le_of_norm_hasFDerivWithin_le
      (fun u hu => (d1_at (hb u hu).1).hasFDerivWithinAt) (fun u hu => (hb u hu).2.2) hz hw
  have hmem : ∀ t ∈ Set.Icc (-1) (T + 1), ∀ N : Fin n → V,
      ((t, clipAll N) : X n) ∈ Set.Icc (-1) (T + 1) ×ˢ Metric.closedBall (0 : Fin n → V) 1 :=
    fun t ht N => ⟨ht, clipAll_mem N⟩
  have h0 : (0 : ℝ) ∈ Set.Icc (-1) (T + 1) := ⟨by norm_num, by linarith⟩
  have hPL : IsPicardLindelof (clipped L) (⟨0, h0⟩ : Set.Icc (-1 : ℝ) (T + 1)) M
      (⟨K * max (T + 1 - 0) (0 - -1), by positivity⟩ : NNReal) 0 ⟨K, hK⟩ (⟨K * 2, by positivity⟩ : NNReal) := by
    refine ⟨fun t ht => ?_, fun N _ => ?_, fun t ht N _ => ?_, ?_⟩
    · refine LipschitzOnWith.of_dist_le_mul fun N _ N' _ => ?_
      rw [dist_eq_norm, dist_eq_norm]
      show ‖(rhs L (t, clipAll N)).2 - (rhs L (t, clipAll N')).2‖ ≤ K * 2 * ‖N - N'‖
      have h1 := hlip _ (hmem t ht N') _ (hmem t ht N)
      have h2 : ‖((t, clipAll N) : X n) - (t, clipAll N')‖ ≤ 2 * ‖N - N'‖ := by
        refine norm_prod_le_iff.2 ⟨?_, clipAll_lip N N'⟩
        simp
      refine (norm_snd_le (rhs L (t, clipAll N) - rhs L (t, clipAll N'))).trans (h1.trans ?_)
      rw [mul_assoc]
      exact mul_le_mul_of_nonneg_left h2 hK
    · intro t ht
      have h1 : ContinuousAt (rhs L) (t, clipAll N) := (hb _ (hmem t ht N)).1.continuousAt
      have h2 : ContinuousAt (fun s : ℝ => ((s, clipAll N) : X n)) t := by fun_prop
      exact (continuousAt_snd.comp (ContinuousAt.comp (f := fun s : ℝ => ((s, clipAll N) : X n)) h1 h2)).continuousWithinAt
    · exact (norm_snd_le (rhs L (t, clipAll N))).trans (hb _ (hmem t ht N)).2.1
    · show K * max (T + 1 - 0) (0 - -1) ≤ K * max (T + 1 - 0) (0 - -1) - 0
      simp
  obtain ⟨α, hα0, hα⟩ := hPL.exists_eq_forall_mem_Icc_hasDerivWithinAt₀
  exact ⟨α, hα0, fun t ht => (hα t ⟨ht.1.le, ht.2.le⟩).hasDerivAt (Icc_mem_nhds ht.1 ht.2)⟩

theorem clipped_unit (L : Fin n → Layer ℝ) {lo hi : ℝ} (h0 : (0 : ℝ) ∈ Set.Ioo lo hi) {α : ℝ → Fin n → V}
    (hα : ∀ t ∈ Set.Ioo lo hi, HasDerivAt α (clipped L t (α t)) t) (hu : ∀ i, ‖α 0 i‖ = 1) (t : ℝ) (ht : t ∈ Set.Ioo lo hi)
    (i : Fin n) : ‖α t i‖ = 1 := by
  have hd : ∀ s ∈ Set.Ioo lo hi, HasDerivWithinAt (fun s => ‖α s i‖ ^ 2) 0 (Set.Ioo lo hi) s := by
    intro s hs
    have h1 : HasDerivAt (fun s => α s i) (clipped L s (α s) i) s := hasDerivAt_pi.1 (hα s hs) i
    refine HasDerivAt.hasDerivWithinAt (h1.norm_sq.congr_deriv ?_)
    have hdot := motion_dot (L i) s (ofV (clip (α s i))) (low (clipAll (α s)) i) (up (clipAll (α s)) i)
    have e : inner ℝ (α s i) (clipped L s (α s) i) = 0 := by
      have hc := clip_pos (α s i)
      have e1 : α s i = (max 1 ‖α s i‖) • clip (α s i) := by
        unfold clip; rw [smul_smul, mul_inv_cancel₀ hc.ne', one_smul]
      rw [e1, real_inner_smul_left]
      refine mul_eq_zero_of_right _ ?_
      show inner ℝ (clip (α s i)) (toV (motion (L i) s (ofV (clip (α s i))) (low (clipAll (α s)) i) (up (clipAll (α s)) i))) = 0
      generalize motion _ _ _ _ _ = w at hdot ⊢
      simp only [PiLp.inner_apply, Fin.sum_univ_three, toV_0, toV_1, toV_2]
      simpa using hdot
    rw [e, mul_zero]
  have := (convex_Ioo lo hi).norm_image_sub_le_of_norm_hasDerivWithin_le (C := 0) hd (by simp) h0 ht
  have e : ‖α t i‖ ^ 2 = 1 := by
    rw [zero_mul, norm_le_zero_iff, sub_eq_zero] at this
    rw [this, hu, one_pow]
  nlinarith [norm_nonneg (α t i), sq_nonneg (‖α t i‖ - 1)]

theorem of_toV {c : ℝ → V} {v : V} {t : ℝ} (h : HasDerivAt c v t) : Slope (fun s => ofV (c s)) (ofV v) t := by
  have key : ∀ i : Fin 3, HasDerivAt (fun s => c s i) (v i) t := by
    intro i
    exact ((EuclideanSpace.proj (𝕜 := ℝ) i : V →L[ℝ] ℝ).hasFDerivAt.comp_hasDerivAt t h)
  exact ⟨key 0, key 1, key 2⟩

/-- Solutions exist for all times. -/
theorem track_exists (j : Junction ℝ) (T : ℝ) (hT : 0 ≤ T) (hu : ∀ l ∈ j.layers, l.mag.length = 1)
    (hv : ∀ l ∈ j.layers, l.Ms * l.thickness ≠ 0) (hq : ∀ l ∈ j.layers, ¬ Noisy l) (hs : ∀ l ∈ j.layers, ∀ t, Smooth l t)
    (hp : ∀ l ∈ j.layers, Poleless l) : ∃ m, Track j m T := by
  set N := j.layers.length with hN
  set L : Fin N → Layer ℝ := fun i => j.layers[i] with hL
  have mem : ∀ i : Fin N, L i ∈ j.layers := fun i => List.getElem_mem i.2
  have get : ∀ (i : Nat) (l : Layer ℝ), j.layers[i]? = some l → ∃ h : i < N, L ⟨i, h⟩ = l := by
    intro i l hl
    obtain ⟨h, e⟩ := List.getElem?_eq_some_iff.1 hl
    exact ⟨h, e⟩
  obtain ⟨α, hα0, hα⟩ := clipped_solution L T hT (fun i => hs _ (mem i)) (fun i => hp _ (mem i)) (fun i => toV (L i).mag)
  have h0 : (0 : ℝ) ∈ Set.Ioo (-1) (T + 1) := ⟨by norm_num, by linarith⟩
  have hunit := clipped_unit L h0 hα (fun i => by rw [hα0, norm_toV]; exact hu _ (mem i))
  let m : Nat → ℝ → CVec ℝ := fun i t => if h : i < N then ofV (α t ⟨i, h⟩) else ⟨0, 0, 0⟩
  have hm : ∀ (i : Nat) (h : i < N) t, m i t = ofV (α t ⟨i, h⟩) := fun i h t => dif_pos h
  have hlow : ∀ (i : Fin N) t, lower m i.1 t = low (α t) i := by
    intro i t
    unfold lower low
    by_cases h : 0 < i.1
    · rw [if_neg (by omega), dif_pos h]; exact hm _ _ _
    · rw [if_pos (by omega), dif_neg h]
  have hup : ∀ (i : Fin N) t, upper N m i.1 t = up (α t) i := by
    intro i t
    unfold upper up
    by_cases h : i.1 + 1 < N
    · rw [if_pos h, dif_pos h]; exact hm _ _ _
    · rw [if_neg h, dif_neg h]
  have hball : ∀ t ∈ Set.Ioo (-1) (T + 1), α t ∈ Metric.closedBall (0 : Fin N → V) 1 := by
    intro t ht
    rw [mem_closedBall_zero_iff, pi_norm_le_iff_of_nonneg zero_le_one]
    exact fun i => (hunit t ht i).le
  refine ⟨m, ⟨⟨-1, T + 1, by norm_num, by linarith, ?_⟩, ?_, hu, hv, hq, fun l hl t _ => hs l hl t, ?_⟩⟩
  · intro i l hl t ht
    obtain ⟨hi, rfl⟩ := get i l hl
    have h1 := of_toV (hasDerivAt_pi.1 (hα t ht) ⟨i, hi⟩)
    have hc : clipAll (α t) = α t := funext fun k => clip_self (hunit t ht k).le
    have e1 : ofV (clipped L t (α t) ⟨i, hi⟩) = motion (L ⟨i, hi⟩) t (m i t) (lower m i t) (upper N m i t) := by
      rw [hm i hi, hlow ⟨i, hi⟩, hup ⟨i, hi⟩]
      unfold clipped
      rw [hc]
      rfl
    rw [e1] at h1
    have e2 : m i = fun s => ofV (α s ⟨i, hi⟩) := funext fun s => hm i hi s
    rw [e2]
    rw [e2] at h1
    exact h1
  · intro i l hl
    obtain ⟨hi, rfl⟩ := get i l hl
    rw [hm i hi, hα0, ofV_toV]
  · intro i l hl t ht
    obtain ⟨hi, rfl⟩ := get i l hl
    have ht' : t ∈ Set.Ioo (-1) (T + 1) := ⟨by linarith [ht.1], by linarith [ht.2]⟩
    rw [hm i hi, hlow ⟨i, hi⟩, hup ⟨i, hi⟩]
    refine hp _ (mem _) _ _ _ ?_ (low_le (hball t ht') _) (up_le (hball t ht') _)
    rw [← norm_toV, toV_ofV, hunit t ht']

end Order
