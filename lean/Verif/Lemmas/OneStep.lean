import Verif.Lemmas.EnsembleExist

/-!
One-step schemes whose increment is a smooth function of state and step are of first order, and the increments of joint steps with
couplings that may depend on the step are such.
-/

set_option linter.unusedSectionVars false
set_option linter.unusedSimpArgs false
set_option maxSynthPendingDepth 4

namespace Order
open Spec Junction

section
variable {E : Type*} [NormedAddCommGroup E] [NormedSpace ℝ E]

theorem onestep {S : E → ℝ → E} {y : ℝ → E} {lo hi T : ℝ} (hlo : lo < 0) (hhi : T < hi) (hT : 0 ≤ T)
    (hy : ∀ t ∈ Set.Ioo lo hi, HasDerivAt y (S (y t) 0) t)
    (hS : ∀ t ∈ Set.Icc 0 T, ContDiffAt ℝ 4 (fun q : E × ℝ => S q.1 q.2) (y t, 0)) {N : E → E} {U : Set E}
    (hU : ∀ t ∈ Set.Icc 0 T, y t ∈ U)
    (hN : ∀ z ∈ U, ∀ u ∈ U, ∀ w, ‖w - z‖ ≤ 1 / 2 → N w ∈ U ∧ ‖N w - u‖ ≤ (1 + 2 * ‖w - z‖) * ‖w - u‖) :
    ∃ C r : ℝ, 0 < r ∧ ∀ (n : ℕ) (h : ℝ), 0 ≤ h → h ≤ r → n * h ≤ T → ∀ z : ℕ → E, z 0 = y 0 →
      (∀ k < n, z (k + 1) = N (z k + h • S (z k) h)) → ‖z n - y (n * h)‖ ≤ C * h := by
  have hF : ∀ t ∈ Set.Icc 0 T, ContDiffAt ℝ 4 (fun z => S z 0) (y t) := fun t ht =>
    ContDiffAt.comp (y t) (f := fun z : E => (z, (0 : ℝ))) (g := fun q : E × ℝ => S q.1 q.2) (hS t ht)
      (contDiffAt_id.prodMk contDiffAt_const)
  obtain ⟨hR, hFl⟩ := trajectory (F := fun z => S z 0) hlo hhi hy hF
  have hyc : ContinuousOn y (Set.Icc 0 T) := fun t ht =>
    (hy t ⟨by linarith [ht.1], by linarith [ht.2]⟩).continuousAt.continuousWithinAt
  obtain ⟨ε, M, hε, hM⟩ := reg_along (y := fun t => (y t, (0 : ℝ))) (hyc.prodMk continuousOn_const) hS
  have hlip := lip_of (K := fun q : E × ℝ => S q.1 q.2) (K' := D1 fun q : E × ℝ => S q.1 q.2) (x := fun t : Set.Icc 0 T => (y t, (0 : ℝ)))
    (ε := ε) (M := M) (fun i z hz => ⟨d1_at (hM i z hz).1, (hM i z hz).2.2.1⟩)
  have near : ∀ (t : Set.Icc 0 T) (z : E) (h : ℝ), ‖z - y t‖ ≤ ε / 2 → |h| ≤ ε / 2 → ‖((z, h) : E × ℝ) - (y t, (0 : ℝ))‖ < ε := by
    intro t z h hz hh
    refine lt_of_le_of_lt (norm_prod_le_iff.2 ⟨hz, ?_⟩) (half_lt_self hε)
    simpa using hh
  have hle : ∀ (t : Set.Icc 0 T) (z w : E) (h g : ℝ), ‖z - y t‖ ≤ ε / 2 → ‖w - y t‖ ≤ ε / 2 → |h| ≤ ε / 2 → |g| ≤ ε / 2 →
      ‖S z h - S w g‖ ≤ |M| * ‖((z, h) : E × ℝ) - (w, g)‖ := fun t z w h g hz hw hh hg =>
    (hlip t (z, h) (w, g) (near t z h hz hh) (near t w g hw hg)).trans (mul_le_mul_of_nonneg_right (le_abs_self M) (norm_nonneg _))
  have sl : SL (fun t : Set.Icc 0 T => y t) S := by
    refine ⟨ε / 2, |M|, |M|, ε / 2, by positivity, abs_nonneg M, abs_nonneg M, by positivity, fun t z w h hz hw hh => ⟨?_, ?_⟩⟩
    · refine (hle t z w h h hz hw hh hh).trans (mul_le_mul_of_nonneg_left ?_ (abs_nonneg M))
      refine norm_prod_le_iff.2 ⟨le_rfl, ?_⟩
      simp
    · exact (hM t (z, h) (near t z h hz hh)).2.1.trans (le_abs_self M)
  have hnear : UO 1 (fun (t : Set.Icc 0 T) h => S (y t) h - S (y t) 0) := by
    refine ⟨|M|, ε / 2, by positivity, fun t h hh => ?_⟩
    refine (hle t (y t) (y t) h 0 (by simpa using (half_pos hε).le) (by simpa using (half_pos hε).le) hh
      (by simpa using (half_pos hε).le)).trans ?_
    rw [pow_one]
    refine mul_le_mul_of_nonneg_left (norm_prod_le_iff.2 ⟨?_, ?_⟩) (abs_nonneg M)
    · simp
    · simp
  have loc : UO (1 + 1) (fun (t : Set.Icc 0 T) h => y (t + h) - (y t + h • S (y t) h)) := by
    refine ((euler_local hR hFl).sub hnear.step).congr' fun t h => ?_
    show y (t + h) - (y t + h • S (y t) h) = y (t + h) - (y t + h • S (y t) 0) - h • (S (y t) h - S (y t) 0)
    module
  obtain ⟨C, r, hr, h⟩ := global hT le_rfl loc sl hU hN
  exact ⟨C, r, hr, fun n d h0 hd hn z z0 hz => by simpa using h n d h0 hd hn z z0 hz⟩

theorem rkSlope_zero (F : E → E) (P : E →L[ℝ] E) (z : E) : rkSlope F P z 0 = F z := by
  simp only [rkSlope, slope1, slope2, slope3, slope4, mul_zero, zero_smul, add_zero]
  module

theorem rkSlope_smooth {F : E → E} {z : E} (hF : ContDiffAt ℝ 4 F z) (P : E →L[ℝ] E) :
    ContDiffAt ℝ 4 (fun q : E × ℝ => rkSlope F P q.1 q.2) (z, 0) := by
  have f0 : ContDiffAt ℝ 4 (fun q : E × ℝ => q.1) (z, 0) := contDiffAt_fst
  have s0 : ContDiffAt ℝ 4 (fun q : E × ℝ => q.2) (z, 0) := contDiffAt_snd
  have stage : ∀ (k : E × ℝ → E) (c : ℝ), ContDiffAt ℝ 4 k (z, 0) → ContDiffAt ℝ 4 (fun q : E × ℝ => F (q.1 + (c * q.2) • P (k q))) (z, 0) := by
    intro k c hk
    refine ContDiffAt.comp (z, (0 : ℝ)) (f := fun q : E × ℝ => q.1 + (c * q.2) • P (k q)) (g := F) (by simpa using hF) ?_
    exact f0.add ((contDiffAt_const.mul s0).smul (P.contDiff.contDiffAt.comp (z, (0 : ℝ)) hk))
  have s1 : ContDiffAt ℝ 4 (fun q : E × ℝ => slope1 F q.1 q.2) (z, 0) := ContDiffAt.comp (z, (0 : ℝ)) (f := fun q : E × ℝ => q.1) (g := F) hF f0
  have s2 : ContDiffAt ℝ 4 (fun q : E × ℝ => slope2 F P q.1 q.2) (z, 0) := stage _ _ s1
  have s3 : ContDiffAt ℝ 4 (fun q : E × ℝ => slope3 F P q.1 q.2) (z, 0) := stage _ _ s2
  have s4 : ContDiffAt ℝ 4 (fun q : E × ℝ => slope4 F P q.1 q.2) (z, 0) := stage _ _ s3
  exact contDiffAt_const.smul (((s1.add (contDiffAt_const.smul s2)).add (contDiffAt_const.smul s3)).add s4)

theorem cd_normalised {f : E → V} {z : E} (hf : ContDiffAt ℝ 4 f z) (h : f z ≠ 0) : CD (fun q => (ofV (f q)).normalize) z := by
  have h1 : ContDiffAt ℝ 4 (fun q => ‖f q‖⁻¹ • f q) z := ((hf.norm ℝ h).inv (norm_ne_zero_iff.2 h)).smul hf
  have h2 : (fun q => toV (ofV (f q)).normalize) =ᶠ[nhds z] fun q => ‖f q‖⁻¹ • f q := by
    filter_upwards [hf.continuousAt.eventually_ne h] with q hq
    exact toV_normalize hq
  exact CD.ofV (h1.congr_of_eventuallyEq h2)

end

section
variable {N : Nat} {n : Fin N → Nat} {W : Type*} [NormedAddCommGroup W] [NormedSpace ℝ W]
  {P : ∀ i, W → Fin (n i) → Layer ℝ} {c : Fin N → Y n × ℝ → W}

/-- magnetisation of layer `p` of member `k` after a step with coupling `w` -/
noncomputable def nextMag (P : ∀ i, W → Fin (n i) → Layer ℝ) (k p : Nat) (w : W) (q : Y n × ℝ) : CVec ℝ :=
  if h : ∃ hk : k < N, p < n ⟨k, hk⟩ then
    (ofV (q.1.2 ⟨k, h.1⟩ ⟨p, h.2⟩ + q.2 • (rkSlope (lifted (P ⟨k, h.1⟩)) (keepW ⟨p, h.2⟩) (sub ⟨k, h.1⟩ q.1, w) q.2).1.2 ⟨p, h.2⟩)).normalize
  else ⟨0, 0, 0⟩

theorem nextMag_eq (i : Fin N) (k : Fin (n i)) (q : Y n × ℝ) :
    nextMag P i.1 k.1 (c i q) q = ofV ((renormAll (q.1 + q.2 • wholeSlope P (fun i z => c i (z, q.2)) q.1 q.2)).2 i k) := by
  unfold nextMag
  rw [dif_pos ⟨i.2, k.2⟩]
  simp only [lifted_slope]
  show _ = ofV (toV (ofV ((q.1 + q.2 • wholeSlope P (fun i z => c i (z, q.2)) q.1 q.2).2 i k)).normalize)
  rw [ofV_toV]
  rfl

theorem nextMag_zero {z : Y n} (hz : z ∈ UnitAll n) (k p : Nat) (w : W) : nextMag P k p w (z, 0) = magAt z.2 k p := by
  unfold nextMag magAt
  by_cases h : ∃ hk : k < N, p < n ⟨k, hk⟩
  · rw [dif_pos h, dif_pos h]
    have h1 := hz ⟨k, h.1⟩ ⟨p, h.2⟩
    simp only [zero_smul, add_zero]
    have := toV_normalize (v := z.2 ⟨k, h.1⟩ ⟨p, h.2⟩) (norm_ne_zero_iff.1 (by rw [h1]; norm_num))
    rw [h1, inv_one, one_smul] at this
    rw [← ofV_toV (ofV _).normalize, this]
  · rw [dif_neg h, dif_neg h]

theorem nextMag_smooth {z : Y n} (hz : z ∈ UnitAll n) {w : Y n × ℝ → W} (hw : ContDiffAt ℝ 4 w (z, 0))
    (hP : ∀ i, ContDiffAt ℝ 4 (lifted (P i)) (sub i z, w (z, 0))) (k p : Nat) : CD (fun q => nextMag P k p (w q) q) (z, 0) := by
  unfold nextMag
  by_cases h : ∃ hk : k < N, p < n ⟨k, hk⟩
  · simp only [dif_pos h]
    have hf : ContDiffAt ℝ 4 (fun q : Y n × ℝ => q.1) (z, 0) := contDiffAt_fst
    have hs : ContDiffAt ℝ 4 (fun q : Y n × ℝ => q.2) (z, 0) := contDiffAt_snd
    have h1 : ContDiffAt ℝ 4 (fun q : Y n × ℝ => rkSlope (lifted (P ⟨k, h.1⟩)) (keepW ⟨p, h.2⟩) (sub ⟨k, h.1⟩ q.1, w q) q.2) (z, 0) := by
      refine ContDiffAt.comp (z, (0 : ℝ)) (f := fun q : Y n × ℝ => ((sub ⟨k, h.1⟩ q.1, w q), q.2))
        (g := fun q : (X (n ⟨k, h.1⟩) × W) × ℝ => rkSlope (lifted (P ⟨k, h.1⟩)) (keepW ⟨p, h.2⟩) q.1 q.2) ?_ ?_
      · exact rkSlope_smooth (hP ⟨k, h.1⟩) _
      · exact (((sub ⟨k, h.1⟩).contDiff.contDiffAt.comp (z, (0 : ℝ)) hf).prodMk hw).prodMk hs
    have h2 := contDiffAt_pi.1 (contDiffAt_snd.comp (z, (0 : ℝ)) (contDiffAt_fst.comp (z, (0 : ℝ)) h1)) ⟨p, h.2⟩
    have h3 : ContDiffAt ℝ 4 (fun q : Y n × ℝ => q.1.2 ⟨k, h.1⟩ ⟨p, h.2⟩) (z, 0) :=
      contDiffAt_pi.1 (contDiffAt_pi.1 (contDiffAt_snd.comp (z, (0 : ℝ)) hf) ⟨k, h.1⟩) ⟨p, h.2⟩
    refine cd_normalised (h3.add (hs.smul h2)) ?_
    have := hz ⟨k, h.1⟩ ⟨p, h.2⟩
    simp only [zero_smul, add_zero]
    exact norm_ne_zero_iff.1 (by rw [this]; norm_num)
  · simp only [dif_neg h]
    exact CD.const _

/-- the increment of a joint step is a smooth function of state and step -/
theorem increment_smooth {z : Y n} (hc : ∀ i, ContDiffAt ℝ 4 (c i) (z, 0))
    (hP : ∀ i, ContDiffAt ℝ 4 (lifted (P i)) (sub i z, c i (z, 0))) :
    ContDiffAt ℝ 4 (fun q : Y n × ℝ => wholeSlope P (fun i z => c i (z, q.2)) q.1 q.2) (z, 0) := by
  have e : (fun q : Y n × ℝ => wholeSlope P (fun i z => c i (z, q.2)) q.1 q.2) = fun q =>
      ((1 : ℝ), (0 : ∀ i : Fin N, Fin (n i) → V)) + ∑ i, ∑ k, ins i k (rkSlope (lifted (P i)) (keepW k) (sub i q.1, c i q) q.2) := by
    funext q
    rw [wholeSlope_parts]
    rfl
  rw [e]
  have hf : ContDiffAt ℝ 4 (fun q : Y n × ℝ => q.1) (z, 0) := contDiffAt_fst
  have hs : ContDiffAt ℝ 4 (fun q : Y n × ℝ => q.2) (z, 0) := contDiffAt_snd
  refine contDiffAt_const.add (ContDiffAt.sum fun i _ => ContDiffAt.sum fun k _ => ?_)
  refine (ins (W := W) i k).contDiff.contDiffAt.comp (z, (0 : ℝ)) ?_
  refine ContDiffAt.comp (z, (0 : ℝ)) (f := fun q : Y n × ℝ => ((sub i q.1, c i q), q.2))
    (g := fun q : (X (n i) × W) × ℝ => rkSlope (lifted (P i)) (keepW k) q.1 q.2) ?_ ?_
  · exact rkSlope_smooth (hP i) _
  · exact (((sub i).contDiff.contDiffAt.comp (z, (0 : ℝ)) hf).prodMk (hc i)).prodMk hs

theorem increment_zero (z : Y n) : wholeSlope P (fun i z => c i (z, 0)) z 0 = whole P (fun i z => c i (z, 0)) z := by
  rw [wholeSlope_parts, whole_parts]
  simp only [rkSlope_zero]

end

end Order
