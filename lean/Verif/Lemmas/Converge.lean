import Verif.Lemmas.Order
import Mathlib.Analysis.Calculus.Deriv.Shift
import Mathlib.Analysis.SpecialFunctions.Exp

/-!
Convergence of one-step schemes: stability of the increments, accumulation of the local errors, smoothness on compact
sets, and Runge-Kutta steps in which part of the state is kept fixed.
-/

set_option linter.unusedSectionVars false
set_option linter.unusedSimpArgs false
set_option maxSynthPendingDepth 4

namespace Order

variable {ι : Type*} {E G : Type*} [NormedAddCommGroup E] [NormedSpace ℝ E] [NormedAddCommGroup G] [NormedSpace ℝ G]

/-! ### Smoothness on compact sets -/

theorem bd {H : Type*} [NormedAddCommGroup H] {K : E → H} {x : E} (hK : ContinuousAt K x) :
    ∀ᶠ z in nhds x, ‖K z‖ ≤ ‖K x‖ + 1 :=
  (hK.norm.eventually (gt_mem_nhds (lt_add_one _))).mono fun _ hz => hz.le

theorem reg_of_compact {F : E → G} {K : Set E} (hK : IsCompact K) (h : ∀ z ∈ K, ContDiffAt ℝ 4 F z) :
    Reg F (fun k : K => (k : E)) := by
  suffices ∃ ε M : ℝ, 0 < ε ∧ ∀ x ∈ K, ∀ z, ‖z - x‖ < ε → ContDiffAt ℝ 4 F z ∧ ‖F z‖ ≤ M ∧ ‖D1 F z‖ ≤ M ∧ ‖D2 F z‖ ≤ M ∧
      ‖D3 F z‖ ≤ M ∧ ‖D4 F z‖ ≤ M by
    obtain ⟨ε, M, hε, hm⟩ := this
    exact ⟨ε, M, hε, fun i z hz => hm i i.2 z hz⟩
  refine hK.induction_on (p := fun s => ∃ ε M : ℝ, 0 < ε ∧ ∀ x ∈ s, ∀ z, ‖z - x‖ < ε → ContDiffAt ℝ 4 F z ∧ ‖F z‖ ≤ M ∧
      ‖D1 F z‖ ≤ M ∧ ‖D2 F z‖ ≤ M ∧ ‖D3 F z‖ ≤ M ∧ ‖D4 F z‖ ≤ M) ⟨1, 0, one_pos, by simp⟩ ?_ ?_ ?_
  · rintro s t hst ⟨ε, M, hε, hm⟩
    exact ⟨ε, M, hε, fun x hx => hm x (hst hx)⟩
  · rintro s t ⟨ε, M, hε, hm⟩ ⟨ε', M', hε', hm'⟩
    refine ⟨min ε ε', max M M', lt_min hε hε', ?_⟩
    rintro x (hx | hx) z hz
    · obtain ⟨h0, h1, h2, h3, h4, h5⟩ := hm x hx z (hz.trans_le (min_le_left _ _))
      exact ⟨h0, le_max_of_le_left h1, le_max_of_le_left h2, le_max_of_le_left h3, le_max_of_le_left h4, le_max_of_le_left h5⟩
    · obtain ⟨h0, h1, h2, h3, h4, h5⟩ := hm' x hx z (hz.trans_le (min_le_right _ _))
      exact ⟨h0, le_max_of_le_right h1, le_max_of_le_right h2, le_max_of_le_right h3, le_max_of_le_right h4,
        le_max_of_le_right h5⟩
  · intro x hx
    have hc := h x hx
    have e0 : ∀ᶠ z in nhds x, ContDiffAt ℝ 4 F z := hc.eventually (by simp)
    have e1 := bd hc.continuousAt
    have e2 := bd (c1_at hc).continuousAt
    have e3 := bd (c2_at hc).continuousAt
    have e4 := bd (c3_at hc).continuousAt
    have e5 := bd (K := D4 F) ((c3_at hc).fderiv_right (m := 0) (by norm_num)).continuousAt
    obtain ⟨δ, hδ, hb⟩ := Metric.eventually_nhds_iff.1 (e0.and (e1.and (e2.and (e3.and (e4.and e5)))))
    refine ⟨Metric.ball x (δ / 2), mem_nhdsWithin_of_mem_nhds (Metric.ball_mem_nhds x (by positivity)), δ / 2,
      max (‖F x‖ + 1) (max (‖D1 F x‖ + 1) (max (‖D2 F x‖ + 1) (max (‖D3 F x‖ + 1) (‖D4 F x‖ + 1)))), by positivity, ?_⟩
    intro w hw z hz
    have hd : dist z x < δ := by
      have h1 : dist z w < δ / 2 := by rwa [dist_eq_norm]
      have h2 : dist w x < δ / 2 := hw
      linarith [dist_triangle z w x]
    obtain ⟨h0, h1, h2, h3, h4, h5⟩ := hb hd
    exact ⟨h0, le_max_of_le_left h1, le_max_of_le_right (le_max_of_le_left h2),
      le_max_of_le_right (le_max_of_le_right (le_max_of_le_left h3)),
      le_max_of_le_right (le_max_of_le_right (le_max_of_le_right (le_max_of_le_left h4))),
      le_max_of_le_right (le_max_of_le_right (le_max_of_le_right (le_max_of_le_right h5)))⟩

theorem Reg.comp {κ : Type*} {F : E → G} {x : ι → E} (h : Reg F x) (f : κ → ι) : Reg F (fun k => x (f k)) := by
  obtain ⟨ε, M, hε, h⟩ := h
  exact ⟨ε, M, hε, fun k => h (f k)⟩

/-- a solution on an open interval around `[0, T]`, seen as solutions starting at all its points -/
theorem trajectory {F : E → E} {y : ℝ → E} {lo hi T : ℝ} (hlo : lo < 0) (hhi : T < hi)
    (hy : ∀ t ∈ Set.Ioo lo hi, HasDerivAt y (F (y t)) t) (hF : ∀ t ∈ Set.Icc 0 T, ContDiffAt ℝ 4 F (y t)) :
    Reg F (fun t : Set.Icc 0 T => y t) ∧ Flow F (fun t : Set.Icc 0 T => y t) (fun t h => y (t + h)) := by
  have hcont : ContinuousOn y (Set.Icc (lo / 2) ((T + hi) / 2)) := fun t ht =>
    (hy t ⟨by linarith [ht.1], by linarith [ht.2]⟩).continuousAt.continuousWithinAt
  have hsub : Set.Icc 0 T ⊆ Set.Icc (lo / 2) ((T + hi) / 2) := Set.Icc_subset_Icc (by linarith) (by linarith)
  have hK : IsCompact (y '' Set.Icc 0 T) := isCompact_Icc.image_of_continuousOn (hcont.mono hsub)
  have hreg : Reg F (fun t : Set.Icc 0 T => y t) :=
    (reg_of_compact hK (by rintro _ ⟨t, ht, rfl⟩; exact hF t ht)).comp
      (fun t : Set.Icc 0 T => (⟨y t, t, t.2, rfl⟩ : y '' Set.Icc 0 T))
  refine ⟨hreg, fun t => by simp, ?_, ?_⟩
  · refine ⟨min (-lo / 2) ((hi - T) / 2), lt_min (by linarith) (by linarith), fun t h hh => ?_⟩
    have h1 := abs_le.1 (hh.trans (min_le_left _ _))
    have h2 := abs_le.1 (hh.trans (min_le_right _ _))
    have := (hy (t + h) ⟨by linarith [t.2.1, h1.1], by linarith [t.2.2, h2.2]⟩)
    exact HasDerivAt.comp_const_add (t : ℝ) h this
  · obtain ⟨ε, M, hε, hm⟩ := hreg
    have hu := (isCompact_Icc (a := lo / 2) (b := (T + hi) / 2)).uniformContinuousOn_of_continuous hcont
    rw [Metric.uniformContinuousOn_iff] at hu
    obtain ⟨δ, hδ, hu⟩ := hu ε hε
    refine ⟨M, min (δ / 2) (min (-lo / 2) ((hi - T) / 2)), lt_min (by linarith) (lt_min (by linarith) (by linarith)),
      fun t h hh => ?_⟩
    have h0 := hh.trans (min_le_left _ _)
    have h1 := abs_le.1 (hh.trans ((min_le_right _ _).trans (min_le_left _ _)))
    have h2 := abs_le.1 (hh.trans ((min_le_right _ _).trans (min_le_right _ _)))
    have := hu (t + h) ⟨by linarith [t.2.1, h1.1], by linarith [t.2.2, h2.2]⟩ t (hsub t.2)
      (by rw [Real.dist_eq, add_sub_cancel_left]; linarith)
    rw [dist_eq_norm] at this
    simpa using (hm t _ this).2.1

/-! ### Stability of the increments -/

/-- the increment is bounded and Lipschitz near the points `x i`, uniformly, for small steps -/
def SL (x : ι → E) (S : E → ℝ → G) : Prop := ∃ ε K B r : ℝ, 0 < ε ∧ 0 ≤ K ∧ 0 ≤ B ∧ 0 < r ∧ ∀ i z w h, ‖z - x i‖ ≤ ε →
  ‖w - x i‖ ≤ ε → |h| ≤ r → ‖S z h - S w h‖ ≤ K * ‖z - w‖ ∧ ‖S z h‖ ≤ B

theorem SL.add {x : ι → E} {S R : E → ℝ → G} (hS : SL x S) (hR : SL x R) : SL x (fun z h => S z h + R z h) := by
  obtain ⟨ε, K, B, r, hε, hK, hB, hr, h⟩ := hS
  obtain ⟨ε', K', B', r', hε', hK', hB', hr', h'⟩ := hR
  refine ⟨min ε ε', K + K', B + B', min r r', lt_min hε hε', by positivity, by positivity, lt_min hr hr', ?_⟩
  intro i z w s hz hw hs
  obtain ⟨a, b⟩ := h i z w s (hz.trans (min_le_left _ _)) (hw.trans (min_le_left _ _)) (hs.trans (min_le_left _ _))
  obtain ⟨a', b'⟩ := h' i z w s (hz.trans (min_le_right _ _)) (hw.trans (min_le_right _ _)) (hs.trans (min_le_right _ _))
  refine ⟨?_, (norm_add_le _ _).trans (add_le_add b b')⟩
  have e : S z s + R z s - (S w s + R w s) = (S z s - S w s) + (R z s - R w s) := by abel
  rw [e, add_mul]
  exact (norm_add_le _ _).trans (add_le_add a a')

theorem SL.map {H : Type*} [NormedAddCommGroup H] [NormedSpace ℝ H] {x : ι → E} {S : E → ℝ → G} (hS : SL x S) (P : G →L[ℝ] H) :
    SL x (fun z h => P (S z h)) := by
  obtain ⟨ε, K, B, r, hε, hK, hB, hr, h⟩ := hS
  refine ⟨ε, ‖P‖ * K, ‖P‖ * B, r, hε, by positivity, by positivity, hr, fun i z w s hz hw hs => ?_⟩
  obtain ⟨a, b⟩ := h i z w s hz hw hs
  refine ⟨?_, (P.le_opNorm _).trans (mul_le_mul_of_nonneg_left b (norm_nonneg P))⟩
  rw [← map_sub, mul_assoc]
  exact (P.le_opNorm _).trans (mul_le_mul_of_nonneg_left a (norm_nonneg P))

theorem SL.smul {x : ι → E} {S : E → ℝ → G} (hS : SL x S) (c : ℝ) : SL x (fun z h => c • S z h) :=
  hS.map (c • ContinuousLinearMap.id ℝ G)

theorem SL.const (x : ι → E) (c : G) : SL x (fun _ _ => c) :=
  ⟨1, 0, ‖c‖, 1, one_pos, le_rfl, norm_nonneg c, one_pos, fun i z w s _ _ _ => by simp⟩

/-- a further stage -/
theorem SL.stage {F : E → G} {x : ι → E} {S : E → ℝ → E} (hF : Reg F x) (hS : SL x S) (c : ℝ) :
    SL x (fun z h => F (z + (c * h) • S z h)) := by
  obtain ⟨ε, M, hε, hF⟩ := hF
  obtain ⟨ε', K, B, r, hε', hK, hB, hr, h⟩ := hS
  have hlip := lip_of (K := F) (K' := D1 F) (x := x) (ε := ε) (M := M)
    (fun i z hz => ⟨d1_at (hF i z hz).1, (hF i z hz).2.2.1⟩)
  refine ⟨min (ε / 3) ε', |M| * (1 + |c| * K), |M|, min (min r 1) (ε / 3 / (|c| * B + 1)), lt_min (by positivity) hε',
    by positivity, abs_nonneg M, lt_min (lt_min hr one_pos) (by positivity), fun i z w s hz hw hs => ?_⟩
  have hs1 : |s| ≤ r := hs.trans ((min_le_left _ _).trans (min_le_left _ _))
  have hs2 : |s| ≤ 1 := hs.trans ((min_le_left _ _).trans (min_le_right _ _))
  have hs3 : |s| ≤ ε / 3 / (|c| * B + 1) := hs.trans (min_le_right _ _)
  obtain ⟨a, b⟩ := h i z w s (hz.trans (min_le_right _ _)) (hw.trans (min_le_right _ _)) hs1
  obtain ⟨-, b'⟩ := h i w w s (hw.trans (min_le_right _ _)) (hw.trans (min_le_right _ _)) hs1
  have hs4 : (|c| * B + 1) * |s| ≤ ε / 3 := by
    have := mul_le_mul_of_nonneg_left hs3 (by positivity : 0 ≤ |c| * B + 1)
    have e : (|c| * B + 1) * (ε / 3 / (|c| * B + 1)) = ε / 3 := by field_simp
    linarith
  have small : ∀ v : E, ‖v‖ ≤ B → ‖(c * s) • v‖ ≤ ε / 3 := by
    intro v hv
    rw [norm_smul, Real.norm_eq_abs, abs_mul]
    calc |c| * |s| * ‖v‖ ≤ |c| * |s| * B := mul_le_mul_of_nonneg_left hv (by positivity)
      _ ≤ (|c| * B + 1) * |s| := by nlinarith [abs_nonneg s]
      _ ≤ ε / 3 := hs4
  have inz : ‖z + (c * s) • S z s - x i‖ < ε := by
    have e : z + (c * s) • S z s - x i = (z - x i) + (c * s) • S z s := by abel
    rw [e]
    linarith [norm_add_le (z - x i) ((c * s) • S z s), small _ b, hz.trans (min_le_left _ _)]
  have inw : ‖w + (c * s) • S w s - x i‖ < ε := by
    have e : w + (c * s) • S w s - x i = (w - x i) + (c * s) • S w s := by abel
    rw [e]
    linarith [norm_add_le (w - x i) ((c * s) • S w s), small _ b', hw.trans (min_le_left _ _)]
  refine ⟨?_, (hF i _ inz).2.1.trans (le_abs_self M)⟩
  refine (hlip i _ _ inz inw).trans ?_
  have e : z + (c * s) • S z s - (w + (c * s) • S w s) = (z - w) + (c * s) • (S z s - S w s) := by module
  rw [e, mul_assoc]
  refine mul_le_mul (le_abs_self M) ?_ (norm_nonneg _) (abs_nonneg M)
  refine (norm_add_le _ _).trans ?_
  rw [norm_smul, Real.norm_eq_abs, abs_mul, add_mul, one_mul]
  refine add_le_add le_rfl ?_
  calc |c| * |s| * ‖S z s - S w s‖ ≤ |c| * 1 * (K * ‖z - w‖) :=
        mul_le_mul (mul_le_mul_of_nonneg_left hs2 (abs_nonneg c)) a (norm_nonneg _) (by positivity)
    _ = |c| * K * ‖z - w‖ := by ring

theorem SL.base {F : E → G} {x : ι → E} (hF : Reg F x) : SL x (fun z _ => F z) := by
  have := SL.stage hF (SL.const x (0 : E)) 0
  simpa using this

/-! ### Increments of the schemes; `P` says which part of the state the stages move -/

noncomputable def slope1 (F : E → E) (z : E) (_ : ℝ) : E := F z
noncomputable def slope2 (F : E → E) (P : E →L[ℝ] E) (z : E) (h : ℝ) : E := F (z + (1 / 2 * h) • P (slope1 F z h))
noncomputable def slope3 (F : E → E) (P : E →L[ℝ] E) (z : E) (h : ℝ) : E := F (z + (1 / 2 * h) • P (slope2 F P z h))
noncomputable def slope4 (F : E → E) (P : E →L[ℝ] E) (z : E) (h : ℝ) : E := F (z + (1 * h) • P (slope3 F P z h))
noncomputable def rkSlope (F : E → E) (P : E →L[ℝ] E) (z : E) (h : ℝ) : E :=
  (1 / 6 : ℝ) • (slope1 F z h + (2 : ℝ) • slope2 F P z h + (2 : ℝ) • slope3 F P z h + slope4 F P z h)
noncomputable def heunSlope (F : E → E) (z : E) (h : ℝ) : E := (1 / 2 : ℝ) • (F z + F (z + (1 * h) • F z))

theorem rk4_eq (F : E → E) (z : E) (h : ℝ) : rk4 F z h = z + h • rkSlope F (.id ℝ E) z h := by
  simp only [rk4, rkSlope, slope1, slope2, slope3, slope4, ContinuousLinearMap.id_apply, mul_smul, one_smul]
  module

theorem heun_eq (F : E → E) (z : E) (h : ℝ) : heun F z h = z + h • heunSlope F z h := by
  simp only [heun, heunSlope, one_mul]
  module

theorem rkSlope_sl {F : E → E} {x : ι → E} (hF : Reg F x) (P : E →L[ℝ] E) : SL x (rkSlope F P) := by
  have s1 : SL x (slope1 F) := SL.base hF
  have s2 : SL x (slope2 F P) := SL.stage hF (s1.map P) (1 / 2)
  have s3 : SL x (slope3 F P) := SL.stage hF (s2.map P) (1 / 2)
  have s4 : SL x (slope4 F P) := SL.stage hF (s3.map P) 1
  exact (((s1.add (s2.smul 2)).add (s3.smul 2)).add s4).smul (1 / 6)

theorem heunSlope_sl {F : E → E} {x : ι → E} (hF : Reg F x) : SL x (heunSlope F) :=
  ((SL.base hF).add (SL.stage hF (SL.base hF) 1)).smul (1 / 2)

/-- a stage agrees with the right-hand side to first order -/
theorem stage_near {F : E → G} {x : ι → E} {S : E → ℝ → E} (hF : Reg F x) (hS : SL x S) (c : ℝ) :
    UO 1 (fun i h => F (x i + (c * h) • S (x i) h) - F (x i)) := by
  obtain ⟨ε, M, hε, hF⟩ := hF
  obtain ⟨ε', K, B, r, hε', hK, hB, hr, h⟩ := hS
  have h0 : UO 0 (fun i h => c • S (x i) h) :=
    ⟨|c| * B, r, hr, fun i s hs => by
      rw [norm_smul, Real.norm_eq_abs, pow_zero, mul_one]
      exact mul_le_mul_of_nonneg_left (h i (x i) (x i) s (by simpa using hε'.le) (by simpa using hε'.le) hs).2 (abs_nonneg c)⟩
  refine (UO.lip (K := F) (K' := D1 F) hε (fun i z hz => ⟨d1_at (hF i z hz).1, (hF i z hz).2.2.1⟩) (n := 0)
    (UO.zero (ι := ι) 1) h0.step).congr' fun i s => ?_
  simp only [zero_add, add_zero, smul_smul, mul_comm c s]

theorem rkSlope_near {F : E → E} {x : ι → E} (hF : Reg F x) (P : E →L[ℝ] E) :
    UO 1 (fun i h => rkSlope F P (x i) h - F (x i)) := by
  have s1 : SL x (slope1 F) := SL.base hF
  have s2 : SL x (slope2 F P) := SL.stage hF (s1.map P) (1 / 2)
  have s3 : SL x (slope3 F P) := SL.stage hF (s2.map P) (1 / 2)
  have n2 := stage_near hF (s1.map P) (1 / 2)
  have n3 := stage_near hF (s2.map P) (1 / 2)
  have n4 := stage_near hF (s3.map P) 1
  refine (((n2.smul (1 / 3)).add (n3.smul (1 / 3))).add (n4.smul (1 / 6))).congr' fun i h => ?_
  simp only [rkSlope, slope1, slope2, slope3, slope4]
  module

/-! ### Accumulation of errors -/

/-- helper -/
theorem recur_bound {B K h d e : ℝ} (hB : 0 ≤ B) (hK : 0 ≤ K) (h0 : 0 ≤ h) (h1 : h ≤ 1) (hBh : h * B ≤ 1 / 2) (d0 : 0 ≤ d)
    (e0 : 0 ≤ e) : (1 + 2 * (h * B)) * ((1 + K * h) * d + e) ≤ (1 + (2 * B + K + 2 * B * K) * h) * d + 2 * e := by
  have t1 : (1 + 2 * (h * B)) * (1 + K * h) ≤ 1 + (2 * B + K + 2 * B * K) * h := by
    have : h * h ≤ h * 1 := mul_le_mul_of_nonneg_left h1 h0
    have : B * K * (h * h) ≤ B * K * (h * 1) := mul_le_mul_of_nonneg_left this (mul_nonneg hB hK)
    linarith
  have t2 : (1 + 2 * (h * B)) * e ≤ 2 * e := mul_le_mul_of_nonneg_right (by linarith) e0
  have t3 := mul_le_mul_of_nonneg_right t1 d0
  linarith

theorem global_from {y : ℝ → E} {T : ℝ} (hT : 0 ≤ T) {S : E → ℝ → E} {N : E → E} {U : Set E} {p : ℕ} (hp : 1 ≤ p) {D : ℝ} (hD : 0 ≤ D)
    (loc : UO (p + 1) (fun (t : Set.Icc 0 T) h => y (t + h) - (y t + h • S (y t) h)))
    (sl : SL (fun t : Set.Icc 0 T => y t) S) (hU : ∀ t ∈ Set.Icc 0 T, y t ∈ U)
    (hN : ∀ z ∈ U, ∀ u ∈ U, ∀ w, ‖w - z‖ ≤ 1 / 2 → N w ∈ U ∧ ‖N w - u‖ ≤ (1 + 2 * ‖w - z‖) * ‖w - u‖) :
    ∃ C r : ℝ, 0 < r ∧ ∀ (a n : ℕ) (h : ℝ), 0 ≤ h → h ≤ r → a ≤ n → n * h ≤ T → ∀ z : ℕ → E, z a ∈ U →
      ‖z a - y (a * h)‖ ≤ D * h ^ p → (∀ k, a ≤ k → k < n → z (k + 1) = N (z k + h • S (z k) h)) →
      ‖z n - y (n * h)‖ ≤ C * h ^ p := by
  obtain ⟨C, r, hC, hr, hr1, loc⟩ := loc.std
  obtain ⟨ε, K, B, q, hε, hK, hB, hq, sl⟩ := sl
  -- error recursion constants
  set Q : ℝ := 2 * B + K + 2 * B * K with hQ
  have hQ0 : 0 ≤ Q := by positivity
  set L : ℝ := (D + T * (2 * C)) * Real.exp (Q * T) with hL
  have hL0 : 0 ≤ L := by positivity
  refine ⟨L, min (min r q) (min (ε / (L + 1)) (1 / (2 * B + 2))), by positivity, ?_⟩
  intro a n h h0 hh han hn z zU0 z0 hz
  have hr' : |h| ≤ r := by rw [abs_of_nonneg h0]; exact hh.trans ((min_le_left _ _).trans (min_le_left _ _))
  have hq' : |h| ≤ q := by rw [abs_of_nonneg h0]; exact hh.trans ((min_le_left _ _).trans (min_le_right _ _))
  have hε' : h ≤ ε / (L + 1) := hh.trans ((min_le_right _ _).trans (min_le_left _ _))
  have hB' : h ≤ 1 / (2 * B + 2) := hh.trans ((min_le_right _ _).trans (min_le_right _ _))
  have h1 : h ≤ 1 := by rw [abs_of_nonneg h0] at hr'; linarith
  have hBh : h * B ≤ 1 / 2 := by
    rw [le_div_iff₀ (by positivity)] at hB'
    nlinarith
  have hLh : L * h ^ p ≤ ε := by
    rw [le_div_iff₀ (by positivity)] at hε'
    have : h ^ p ≤ h := by simpa using pow_le_pow_of_le_one h0 h1 hp
    nlinarith
  have key : ∀ k, a ≤ k → k ≤ n → z k ∈ U ∧ ‖z k - y (k * h)‖ ≤ (D + k * h * (2 * C)) * Real.exp (Q * (k * h)) * h ^ p := by
    intro k hak
    induction k, hak using Nat.le_induction with
    | base =>
      intro _
      refine ⟨zU0, z0.trans (mul_le_mul_of_nonneg_right ?_ (by positivity))⟩
      have x3 : 1 ≤ Real.exp (Q * (a * h)) := Real.one_le_exp (by positivity)
      have x4 : 0 ≤ a * h * (2 * C) := by positivity
      nlinarith
    | succ k hak ih =>
      intro hk
      obtain ⟨zU, e⟩ := ih (by omega)
      have hkT : k * h ∈ Set.Icc 0 T := ⟨by positivity, by
        have : (k : ℝ) * h ≤ n * h := mul_le_mul_of_nonneg_right (by exact_mod_cast (by omega : k ≤ n)) h0
        linarith⟩
      have hk1T : ((k + 1 : ℕ) : ℝ) * h ∈ Set.Icc 0 T := ⟨by positivity, by
        have : ((k + 1 : ℕ) : ℝ) * h ≤ n * h := mul_le_mul_of_nonneg_right (by exact_mod_cast hk) h0
        linarith⟩
      have eL : (D + k * h * (2 * C)) * Real.exp (Q * (k * h)) * h ^ p ≤ ε := by
        refine le_trans ?_ hLh
        refine mul_le_mul_of_nonneg_right ?_ (by positivity)
        refine mul_le_mul (add_le_add le_rfl (mul_le_mul_of_nonneg_right hkT.2 (by positivity)))
          (Real.exp_le_exp.2 (mul_le_mul_of_nonneg_left hkT.2 hQ0)) (Real.exp_nonneg _) (by positivity)
      obtain ⟨lz, bz⟩ := sl ⟨k * h, hkT⟩ (z k) (y (k * h)) h (e.trans eL) (by simpa using hε.le) hq'
      have lc := loc ⟨k * h, hkT⟩ h hr'
      have hw : ‖z k + h • S (z k) h - z k‖ ≤ h * B := by
        rw [add_sub_cancel_left, norm_smul, Real.norm_eq_abs, abs_of_nonneg h0]
        exact mul_le_mul_of_nonneg_left bz h0
      obtain ⟨nU, nE⟩ := hN (z k) zU _ (hU _ hk1T) (z k + h • S (z k) h) (hw.trans hBh)
      rw [hz k hak (by omega)]
      refine ⟨nU, nE.trans ?_⟩
      have et : y ((k + 1 : ℕ) * h) = y (k * h + h) := by congr 1; push_cast; ring
      rw [et]
      have e1 : z k + h • S (z k) h - y (k * h + h) = (z k - y (k * h)) + h • (S (z k) h - S (y (k * h)) h) -
          (y (k * h + h) - (y (k * h) + h • S (y (k * h)) h)) := by module
      have b1 : ‖z k + h • S (z k) h - y (k * h + h)‖ ≤ (1 + K * h) * ‖z k - y (k * h)‖ + C * h ^ (p + 1) := by
        rw [e1]
        refine (norm_sub_le _ _).trans (add_le_add ((norm_add_le _ _).trans ?_) ?_)
        · rw [norm_smul, Real.norm_eq_abs, abs_of_nonneg h0]
          nlinarith
        · rw [abs_of_nonneg h0] at lc; exact lc
      set d := ‖z k - y (k * h)‖ with hd
      have d0 : 0 ≤ d := norm_nonneg _
      have s1 : (1 + 2 * ‖z k + h • S (z k) h - z k‖) * ‖z k + h • S (z k) h - y (k * h + h)‖ ≤
          (1 + 2 * (h * B)) * ((1 + K * h) * d + C * h ^ (p + 1)) :=
        mul_le_mul (by linarith) b1 (norm_nonneg _) (by positivity)
      refine s1.trans ?_
      have s2 := recur_bound (d := d) (e := C * h ^ (p + 1)) hB hK h0 h1 hBh d0 (by positivity)
      rw [← hQ, ← mul_assoc 2 C] at s2
      refine s2.trans ?_
      have x1 : 1 + Q * h ≤ Real.exp (Q * h) := by linarith [Real.add_one_le_exp (Q * h)]
      have x2 : Real.exp (Q * ((k + 1 : ℕ) * h)) = Real.exp (Q * h) * Real.exp (Q * (k * h)) := by
        rw [← Real.exp_add]; congr 1; push_cast; ring
      have x3 : 1 ≤ Real.exp (Q * ((k + 1 : ℕ) * h)) := Real.one_le_exp (by positivity)
      calc (1 + Q * h) * d + 2 * C * h ^ (p + 1) ≤
            Real.exp (Q * h) * ((D + k * h * (2 * C)) * Real.exp (Q * (k * h)) * h ^ p) + 2 * C * h ^ (p + 1) :=
            add_le_add (mul_le_mul x1 e d0 (Real.exp_nonneg _)) le_rfl
        _ = (D + k * h * (2 * C)) * Real.exp (Q * ((k + 1 : ℕ) * h)) * h ^ p + h * (2 * C) * 1 * h ^ p := by rw [x2]; ring
        _ ≤ (D + k * h * (2 * C)) * Real.exp (Q * ((k + 1 : ℕ) * h)) * h ^ p +
            h * (2 * C) * Real.exp (Q * ((k + 1 : ℕ) * h)) * h ^ p :=
            add_le_add le_rfl (mul_le_mul_of_nonneg_right (mul_le_mul_of_nonneg_left x3 (by positivity)) (by positivity))
        _ = _ := by push_cast; ring
  refine ((key n han le_rfl).2).trans ?_
  refine mul_le_mul_of_nonneg_right ?_ (by positivity)
  rw [hL]
  exact mul_le_mul (add_le_add le_rfl (mul_le_mul_of_nonneg_right hn (by positivity))) (Real.exp_le_exp.2 (mul_le_mul_of_nonneg_left hn hQ0))
    (Real.exp_nonneg _) (by positivity)

theorem global {y : ℝ → E} {T : ℝ} (hT : 0 ≤ T) {S : E → ℝ → E} {N : E → E} {U : Set E} {p : ℕ} (hp : 1 ≤ p)
    (loc : UO (p + 1) (fun (t : Set.Icc 0 T) h => y (t + h) - (y t + h • S (y t) h)))
    (sl : SL (fun t : Set.Icc 0 T => y t) S) (hU : ∀ t ∈ Set.Icc 0 T, y t ∈ U)
    (hN : ∀ z ∈ U, ∀ u ∈ U, ∀ w, ‖w - z‖ ≤ 1 / 2 → N w ∈ U ∧ ‖N w - u‖ ≤ (1 + 2 * ‖w - z‖) * ‖w - u‖) :
    ∃ C r : ℝ, 0 < r ∧ ∀ (n : ℕ) (h : ℝ), 0 ≤ h → h ≤ r → n * h ≤ T → ∀ z : ℕ → E, z 0 = y 0 →
      (∀ k < n, z (k + 1) = N (z k + h • S (z k) h)) → ‖z n - y (n * h)‖ ≤ C * h ^ p := by
  obtain ⟨C, r, hr, h⟩ := global_from hT hp le_rfl loc sl hU hN
  refine ⟨C, r, hr, fun n d h0 hd hn z z0 hz => ?_⟩
  refine h 0 n d h0 hd (by omega) hn z (by rw [z0]; exact hU 0 ⟨le_rfl, hT⟩) (by simp [z0]) fun k _ hk => hz k hk

end Order
