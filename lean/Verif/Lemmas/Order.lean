import Mathlib.Analysis.Calculus.MeanValue
import Mathlib.Analysis.Calculus.ContDiff.Operations
import Mathlib.Analysis.Calculus.FDeriv.Symmetric
import Mathlib.Tactic.Module

/-!
Numerical analysis for the integrators: expansion of the right-hand side of an autonomous equation along a curve,
expansion of its solutions, and the local errors of the schemes of Runge-Kutta, Heun and Euler. Nothing here speaks
about the model; `i` ranges over the points at which a step starts, and all constants are uniform in it.
-/

set_option linter.unusedSectionVars false
set_option linter.unusedSimpArgs false
set_option maxSynthPendingDepth 4

namespace Order

variable {ι : Type*} {E G : Type*} [NormedAddCommGroup E] [NormedSpace ℝ E] [NormedAddCommGroup G] [NormedSpace ℝ G]

/-- `f i h` is at most a multiple of `|h| ^ n`, uniformly in `i`, for small `h` -/
def UO (n : ℕ) (f : ι → ℝ → E) : Prop := ∃ C r : ℝ, 0 < r ∧ ∀ i h, |h| ≤ r → ‖f i h‖ ≤ C * |h| ^ n

/-- bounded family -/
def Bdd (a : ι → E) : Prop := ∃ M : ℝ, ∀ i, ‖a i‖ ≤ M

theorem UO.std {n : ℕ} {f : ι → ℝ → E} (h : UO n f) :
    ∃ C r : ℝ, 0 ≤ C ∧ 0 < r ∧ r ≤ 1 ∧ ∀ i h, |h| ≤ r → ‖f i h‖ ≤ C * |h| ^ n := by
  obtain ⟨C, r, hr, hf⟩ := h
  refine ⟨max C 0, min r 1, le_max_right _ _, lt_min hr one_pos, min_le_right _ _, fun i h hh => ?_⟩
  exact (hf i h (hh.trans (min_le_left _ _))).trans (mul_le_mul_of_nonneg_right (le_max_left _ _) (by positivity))

theorem UO.congr {n : ℕ} {f g : ι → ℝ → E} (hf : UO n f) (e : ∃ r : ℝ, 0 < r ∧ ∀ i h, |h| ≤ r → g i h = f i h) :
    UO n g := by
  obtain ⟨C, r, -, hr, -, hf⟩ := hf.std
  obtain ⟨q, hq, he⟩ := e
  exact ⟨C, min r q, lt_min hr hq, fun i h hh => by
    rw [he i h (hh.trans (min_le_right _ _))]; exact hf i h (hh.trans (min_le_left _ _))⟩

theorem UO.congr' {n : ℕ} {f g : ι → ℝ → E} (hf : UO n f) (e : ∀ i h, g i h = f i h) : UO n g :=
  hf.congr ⟨1, one_pos, fun i h _ => e i h⟩

theorem UO.zero (n : ℕ) : UO n (fun (_ : ι) _ => (0 : E)) := ⟨0, 1, one_pos, fun i h _ => by simp⟩

theorem UO.add {n : ℕ} {f g : ι → ℝ → E} (hf : UO n f) (hg : UO n g) : UO n (fun i h => f i h + g i h) := by
  obtain ⟨C, r, -, hr, -, hf⟩ := hf.std
  obtain ⟨D, q, -, hq, -, hg⟩ := hg.std
  refine ⟨C + D, min r q, lt_min hr hq, fun i h hh => ?_⟩
  have h1 := hf i h (hh.trans (min_le_left _ _))
  have h2 := hg i h (hh.trans (min_le_right _ _))
  calc ‖f i h + g i h‖ ≤ ‖f i h‖ + ‖g i h‖ := norm_add_le _ _
    _ ≤ (C + D) * |h| ^ n := by linarith [add_mul C D (|h| ^ n)]

theorem UO.smul {n : ℕ} {f : ι → ℝ → E} (hf : UO n f) (c : ℝ) : UO n (fun i h => c • f i h) := by
  obtain ⟨C, r, -, hr, -, hf⟩ := hf.std
  refine ⟨|c| * C, r, hr, fun i h hh => ?_⟩
  rw [norm_smul, Real.norm_eq_abs, mul_assoc]
  exact mul_le_mul_of_nonneg_left (hf i h hh) (abs_nonneg c)

theorem UO.neg {n : ℕ} {f : ι → ℝ → E} (hf : UO n f) : UO n (fun i h => - f i h) :=
  (hf.smul (-1)).congr' fun i h => by simp

theorem UO.sub {n : ℕ} {f g : ι → ℝ → E} (hf : UO n f) (hg : UO n g) : UO n (fun i h => f i h - g i h) :=
  (hf.add hg.neg).congr' fun _ _ => sub_eq_add_neg _ _

theorem UO.mono {m n : ℕ} (hmn : m ≤ n) {f : ι → ℝ → E} (hf : UO n f) : UO m f := by
  obtain ⟨C, r, hC, hr, hr1, hf⟩ := hf.std
  refine ⟨C, r, hr, fun i h hh => (hf i h hh).trans ?_⟩
  exact mul_le_mul_of_nonneg_left (pow_le_pow_of_le_one (abs_nonneg h) (hh.trans hr1) hmn) hC

/-- a factor `h` gains one order -/
theorem UO.step {n : ℕ} {f : ι → ℝ → E} (hf : UO n f) : UO (n + 1) (fun i h => h • f i h) := by
  obtain ⟨C, r, -, hr, -, hf⟩ := hf.std
  refine ⟨C, r, hr, fun i h hh => ?_⟩
  rw [norm_smul, Real.norm_eq_abs]
  calc |h| * ‖f i h‖ ≤ |h| * (C * |h| ^ n) := mul_le_mul_of_nonneg_left (hf i h hh) (abs_nonneg h)
    _ = C * |h| ^ (n + 1) := by ring

theorem Bdd.uo {a : ι → E} (h : Bdd a) : UO 0 (fun i _ => a i) := by
  obtain ⟨M, hM⟩ := h
  exact ⟨M, 1, one_pos, fun i h _ => by simpa using hM i⟩

theorem Bdd.pow {a : ι → E} (ha : Bdd a) (n : ℕ) : UO n (fun i h => h ^ n • a i) := by
  obtain ⟨M, hM⟩ := ha
  refine ⟨M, 1, one_pos, fun i h _ => ?_⟩
  rw [norm_smul, norm_pow, Real.norm_eq_abs, mul_comm]
  exact mul_le_mul_of_nonneg_right (hM i) (by positivity)

theorem Bdd.add {a b : ι → E} (ha : Bdd a) (hb : Bdd b) : Bdd (fun i => a i + b i) := by
  obtain ⟨M, hM⟩ := ha
  obtain ⟨N, hN⟩ := hb
  exact ⟨M + N, fun i => (norm_add_le _ _).trans (add_le_add (hM i) (hN i))⟩

theorem Bdd.smul {a : ι → E} (ha : Bdd a) (c : ℝ) : Bdd (fun i => c • a i) := by
  obtain ⟨M, hM⟩ := ha
  exact ⟨|c| * M, fun i => by rw [norm_smul, Real.norm_eq_abs]; exact mul_le_mul_of_nonneg_left (hM i) (abs_nonneg c)⟩

theorem Bdd.app {P : ι → E →L[ℝ] G} {a : ι → E} (hP : Bdd P) (ha : Bdd a) : Bdd (fun i => P i (a i)) := by
  obtain ⟨M, hM⟩ := hP
  obtain ⟨N, hN⟩ := ha
  refine ⟨M * N, fun i => ((P i).le_opNorm _).trans ?_⟩
  exact mul_le_mul (hM i) (hN i) (norm_nonneg _) ((norm_nonneg _).trans (hM i))

/-- a family whose derivative is of order `n` and that starts at zero is of order `n + 1` -/
theorem UO.integrate {n : ℕ} {f f' : ι → ℝ → E} (hd : ∃ r : ℝ, 0 < r ∧ ∀ i h, |h| ≤ r → HasDerivAt (f i) (f' i h) h)
    (hf : UO n f') (h0 : ∀ i, f i 0 = 0) : UO (n + 1) f := by
  obtain ⟨C, r, hC, hr, -, hf⟩ := hf.std
  obtain ⟨q, hq, hd⟩ := hd
  refine ⟨C, min r q, lt_min hr hq, fun i h hh => ?_⟩
  have hb : ∀ s ∈ Set.Icc (-|h|) |h|, |s| ≤ |h| := fun s hs => abs_le.2 hs
  have key := (convex_Icc (-|h|) |h|).norm_image_sub_le_of_norm_hasDerivWithin_le (f := f i) (f' := f' i)
    (C := C * |h| ^ n) (x := 0) (y := h)
    (fun s hs => (hd i s ((hb s hs).trans (hh.trans (min_le_right _ _)))).hasDerivWithinAt)
    (fun s hs => (hf i s ((hb s hs).trans (hh.trans (min_le_left _ _)))).trans
      (mul_le_mul_of_nonneg_left (pow_le_pow_left₀ (abs_nonneg s) (hb s hs) n) hC))
    ⟨by simp, by simp⟩ ⟨neg_abs_le h, le_abs_self h⟩
  rw [h0, sub_zero, sub_zero, Real.norm_eq_abs] at key
  calc ‖f i h‖ ≤ C * |h| ^ n * |h| := key
    _ = C * |h| ^ (n + 1) := by ring

/-- application of operators to vectors, to first order -/
theorem UO.app {P : ι → ℝ → E →L[ℝ] G} {P0 : ι → E →L[ℝ] G} {v : ι → ℝ → E} {v0 : ι → E}
    (hP : UO 1 (fun i h => P i h - P0 i)) (hv : UO 1 (fun i h => v i h - v0 i)) (bP : Bdd P0) (bv : Bdd v0) :
    UO 1 (fun i h => P i h (v i h) - P0 i (v0 i)) := by
  obtain ⟨C, r, hC, hr, hr1, hP⟩ := hP.std
  obtain ⟨D, q, hD, hq, hq1, hv⟩ := hv.std
  obtain ⟨M, hM⟩ := bP
  obtain ⟨N, hN⟩ := bv
  refine ⟨C * (D + N) + M * D, min r q, lt_min hr hq, fun i h hh => ?_⟩
  have h1 := hP i h (hh.trans (min_le_left _ _))
  have h2 := hv i h (hh.trans (min_le_right _ _))
  rw [pow_one] at h1 h2 ⊢
  have hh1 : |h| ≤ 1 := hh.trans ((min_le_left _ _).trans hr1)
  have hvn : ‖v i h‖ ≤ D + N := by
    calc ‖v i h‖ = ‖(v i h - v0 i) + v0 i‖ := by rw [sub_add_cancel]
      _ ≤ ‖v i h - v0 i‖ + ‖v0 i‖ := norm_add_le _ _
      _ ≤ D + N := add_le_add (h2.trans (by nlinarith)) (hN i)
  have e : P i h (v i h) - P0 i (v0 i) = (P i h - P0 i) (v i h) + P0 i (v i h - v0 i) := by
    simp only [sub_apply, map_sub]; abel
  show ‖P i h (v i h) - P0 i (v0 i)‖ ≤ _
  rw [e]
  calc _ ≤ ‖(P i h - P0 i) (v i h)‖ + ‖P0 i (v i h - v0 i)‖ := norm_add_le _ _
    _ ≤ C * |h| * (D + N) + M * (D * |h|) := by
      refine add_le_add (((P i h - P0 i).le_opNorm _).trans ?_) (((P0 i).le_opNorm _).trans ?_)
      · exact mul_le_mul h1 hvn (norm_nonneg _) (by positivity)
      · exact mul_le_mul (hM i) h2 (norm_nonneg _) ((norm_nonneg _).trans (hM i))
    _ = _ := by ring

/-! ### The right-hand side -/

/-- first, second, third and fourth derivative -/
noncomputable abbrev D1 (F : E → G) (z : E) : E →L[ℝ] G := fderiv ℝ F z
noncomputable abbrev D2 (F : E → G) (z : E) : E →L[ℝ] E →L[ℝ] G := fderiv ℝ (D1 F) z
noncomputable abbrev D3 (F : E → G) (z : E) : E →L[ℝ] E →L[ℝ] E →L[ℝ] G := fderiv ℝ (D2 F) z
noncomputable abbrev D4 (F : E → G) (z : E) : E →L[ℝ] E →L[ℝ] E →L[ℝ] E →L[ℝ] G := fderiv ℝ (D3 F) z

/-- `F` is four times continuously differentiable, with bounds, in balls of a common radius around the points `x i` -/
def Reg (F : E → G) (x : ι → E) : Prop :=
  ∃ ε M : ℝ, 0 < ε ∧ ∀ i z, ‖z - x i‖ < ε → ContDiffAt ℝ 4 F z ∧ ‖F z‖ ≤ M ∧ ‖D1 F z‖ ≤ M ∧ ‖D2 F z‖ ≤ M ∧
    ‖D3 F z‖ ≤ M ∧ ‖D4 F z‖ ≤ M

theorem d1_at {F : E → G} {z : E} (h : ContDiffAt ℝ 4 F z) : HasFDerivAt F (D1 F z) z :=
  (h.differentiableAt (by norm_num)).hasFDerivAt
theorem c1_at {F : E → G} {z : E} (h : ContDiffAt ℝ 4 F z) : ContDiffAt ℝ 3 (D1 F) z := h.fderiv_right (by norm_num)
theorem d2_at {F : E → G} {z : E} (h : ContDiffAt ℝ 4 F z) : HasFDerivAt (D1 F) (D2 F z) z :=
  ((c1_at h).differentiableAt (by norm_num)).hasFDerivAt
theorem c2_at {F : E → G} {z : E} (h : ContDiffAt ℝ 4 F z) : ContDiffAt ℝ 2 (D2 F) z :=
  (c1_at h).fderiv_right (by norm_num)
theorem d3_at {F : E → G} {z : E} (h : ContDiffAt ℝ 4 F z) : HasFDerivAt (D2 F) (D3 F z) z :=
  ((c2_at h).differentiableAt (by norm_num)).hasFDerivAt
theorem c3_at {F : E → G} {z : E} (h : ContDiffAt ℝ 4 F z) : ContDiffAt ℝ 1 (D3 F) z :=
  (c2_at h).fderiv_right (by norm_num)
theorem d4_at {F : E → G} {z : E} (h : ContDiffAt ℝ 4 F z) : HasFDerivAt (D3 F) (D4 F z) z :=
  ((c3_at h).differentiableAt (by norm_num)).hasFDerivAt

theorem symm_at {F : E → G} {z : E} (h : ContDiffAt ℝ 4 F z) (u v : E) : D2 F z u v = D2 F z v u :=
  (h.isSymmSndFDerivAt (by simp; exact_mod_cast (by decide : (2 : ℕ) ≤ 4))) u v

/-- Lipschitz along the points -/
theorem lip_of {H : Type*} [NormedAddCommGroup H] [NormedSpace ℝ H] {K : E → H} {K' : E → E →L[ℝ] H} {x : ι → E} {ε M : ℝ}
    (h : ∀ i z, ‖z - x i‖ < ε → HasFDerivAt K (K' z) z ∧ ‖K' z‖ ≤ M) (i : ι) (z w : E) (hz : ‖z - x i‖ < ε)
    (hw : ‖w - x i‖ < ε) : ‖K z - K w‖ ≤ M * ‖z - w‖ := by
  have key := (convex_ball (x i) ε).norm_image_sub_le_of_norm_hasFDerivWithin_le (f := K) (f' := K') (C := M) (x := w) (y := z)
    (fun s hs => ((h i s (by simpa [dist_eq_norm] using hs)).1).hasFDerivWithinAt)
    (fun s hs => (h i s (by simpa [dist_eq_norm] using hs)).2)
    (by simpa [dist_eq_norm] using hw) (by simpa [dist_eq_norm] using hz)
  exact key

/-- small perturbations stay in the balls -/
theorem UO.small {δ : ι → ℝ → E} (h : UO 1 δ) {ε : ℝ} (hε : 0 < ε) :
    ∃ r : ℝ, 0 < r ∧ ∀ i h, |h| ≤ r → ‖δ i h‖ < ε := by
  obtain ⟨C, r, hC, hr, hr1, h⟩ := h.std
  refine ⟨min r (ε / (C + 1) / 2), lt_min hr (by positivity), fun i s hs => ?_⟩
  have h1 := h i s (hs.trans (min_le_left _ _))
  have h2 := hs.trans (min_le_right _ _)
  rw [pow_one] at h1
  have h3 : (C + 1) * |s| ≤ ε / 2 := by
    have := mul_le_mul_of_nonneg_left h2 (by positivity : 0 ≤ C + 1)
    have e : (C + 1) * (ε / (C + 1) / 2) = ε / 2 := by field_simp
    linarith
  nlinarith [abs_nonneg s]

theorem UO.lip {H : Type*} [NormedAddCommGroup H] [NormedSpace ℝ H] {K : E → H} {K' : E → E →L[ℝ] H} {x : ι → E} {ε M : ℝ}
    (hε : 0 < ε) (hK : ∀ i z, ‖z - x i‖ < ε → HasFDerivAt K (K' z) z ∧ ‖K' z‖ ≤ M) {n : ℕ} {δ e : ι → ℝ → E} (hδ : UO 1 δ)
    (he : UO (n + 1) e) : UO (n + 1) (fun i h => K (x i + (δ i h + e i h)) - K (x i + δ i h)) := by
  obtain ⟨r, hr, h1⟩ := hδ.small hε
  obtain ⟨q, hq, h2⟩ := (hδ.add (he.mono (by omega : 1 ≤ n + 1))).small hε
  obtain ⟨C, p, hC, hp, -, h3⟩ := he.std
  refine ⟨|M| * C, min p (min r q), lt_min hp (lt_min hr hq), fun i h hh => ?_⟩
  have a1 := h1 i h (hh.trans ((min_le_right _ _).trans (min_le_left _ _)))
  have a2 := h2 i h (hh.trans ((min_le_right _ _).trans (min_le_right _ _)))
  have a3 := h3 i h (hh.trans (min_le_left _ _))
  have l := lip_of hK i (x i + (δ i h + e i h)) (x i + δ i h) (by simpa using a2) (by simpa using a1)
  have e1 : x i + (δ i h + e i h) - (x i + δ i h) = e i h := by abel
  rw [e1] at l
  calc _ ≤ M * ‖e i h‖ := l
    _ ≤ |M| * (C * |h| ^ (n + 1)) := mul_le_mul (le_abs_self M) a3 (norm_nonneg _) (abs_nonneg M)
    _ = _ := by ring

/-- cubic curve through the origin -/
def cubic (a b c : ι → E) (i : ι) (h : ℝ) : E := h • a i + h ^ 2 • b i + h ^ 3 • c i

theorem cubic_uo {a b c : ι → E} (ha : Bdd a) (hb : Bdd b) (hc : Bdd c) : UO 1 (cubic a b c) :=
  (((ha.pow 1).add ((hb.pow 2).mono (by norm_num))).add ((hc.pow 3).mono (by norm_num))).congr' fun i h => by
    simp [cubic]

/-- the right-hand side along a cubic curve, to third order -/
noncomputable def along (F : E → G) (x a b c : ι → E) (i : ι) (h : ℝ) : G :=
  F (x i) + h • D1 F (x i) (a i) + h ^ 2 • (D1 F (x i) (b i) + (1 / 2 : ℝ) • D2 F (x i) (a i) (a i)) +
    h ^ 3 • (D1 F (x i) (c i) + D2 F (x i) (a i) (b i) + (1 / 6 : ℝ) • D3 F (x i) (a i) (a i) (a i))

theorem expand {F : E → G} {x a b c : ι → E} (hF : Reg F x) (ha : Bdd a) (hb : Bdd b) (hc : Bdd c) :
    UO 4 (fun i h => F (x i + cubic a b c i h) - along F x a b c i h) := by
  obtain ⟨ε, M, hε, hF⟩ := hF
  have hx : ∀ i, ‖x i - x i‖ < ε := fun i => by simpa using hε
  have b1 : Bdd (fun i => D1 F (x i)) := ⟨M, fun i => (hF i _ (hx i)).2.2.1⟩
  have b2 : Bdd (fun i => D2 F (x i)) := ⟨M, fun i => (hF i _ (hx i)).2.2.2.1⟩
  have b3 : Bdd (fun i => D3 F (x i)) := ⟨M, fun i => (hF i _ (hx i)).2.2.2.2.1⟩
  have hδ := cubic_uo ha hb hc
  obtain ⟨r, hr, hsm⟩ := hδ.small hε
  have hC : ∀ i h, |h| ≤ r → ContDiffAt ℝ 4 F (x i + cubic a b c i h) := fun i h hh =>
    (hF i _ (by simpa using hsm i h hh)).1
  -- the derivatives of the curve
  let d1 : ι → ℝ → E := fun i h => a i + (2 * h) • b i + (3 * h ^ 2) • c i
  let d2 : ι → ℝ → E := fun i h => (2 : ℝ) • b i + (6 * h) • c i
  let d3 : ι → ℝ → E := fun i _ => (6 : ℝ) • c i
  have e1 : ∀ i h, HasDerivAt (fun s => x i + cubic a b c i s) (d1 i h) h := fun i h => by
    have h1 : HasDerivAt (fun s : ℝ => s • a i) ((1 : ℝ) • a i) h := (hasDerivAt_id h).smul_const (a i)
    have h2 : HasDerivAt (fun s : ℝ => s ^ 2 • b i) ((2 * h) • b i) h := by
      simpa using (hasDerivAt_pow 2 h).smul_const (b i)
    have h3 : HasDerivAt (fun s : ℝ => s ^ 3 • c i) ((3 * h ^ 2) • c i) h := by
      simpa using (hasDerivAt_pow 3 h).smul_const (c i)
    simpa [cubic, d1] using ((h1.add h2).add h3).const_add (x i)
  have e2 : ∀ i h, HasDerivAt (d1 i) (d2 i h) h := fun i h => by
    have h2 : HasDerivAt (fun s : ℝ => (2 * s) • b i) ((2 : ℝ) • b i) h := by
      simpa using ((hasDerivAt_id h).const_mul 2).smul_const (b i)
    have h3 : HasDerivAt (fun s : ℝ => (3 * s ^ 2) • c i) ((6 * h) • c i) h := by
      have := ((hasDerivAt_pow 2 h).const_mul 3).smul_const (c i)
      convert this using 2; norm_num; ring
    exact (h2.const_add (a i)).add h3
  have e3 : ∀ i h, HasDerivAt (d2 i) (d3 i h) h := fun i h => by
    have h3 : HasDerivAt (fun s : ℝ => (6 * s) • c i) ((6 : ℝ) • c i) h := by
      simpa using ((hasDerivAt_id h).const_mul 6).smul_const (c i)
    exact h3.const_add _
  -- the derivatives of the right-hand side along it
  have f1 : ∀ i h, |h| ≤ r → HasDerivAt (fun s => F (x i + cubic a b c i s)) (D1 F (x i + cubic a b c i h) (d1 i h)) h :=
    fun i h hh => (d1_at (hC i h hh)).comp_hasDerivAt h (e1 i h)
  have g1 : ∀ i h, |h| ≤ r → HasDerivAt (fun s => D1 F (x i + cubic a b c i s)) (D2 F (x i + cubic a b c i h) (d1 i h)) h :=
    fun i h hh => (d2_at (hC i h hh)).comp_hasDerivAt h (e1 i h)
  have g2 : ∀ i h, |h| ≤ r → HasDerivAt (fun s => D2 F (x i + cubic a b c i s)) (D3 F (x i + cubic a b c i h) (d1 i h)) h :=
    fun i h hh => (d3_at (hC i h hh)).comp_hasDerivAt h (e1 i h)
  have f2 : ∀ i h, |h| ≤ r → HasDerivAt (fun s => D1 F (x i + cubic a b c i s) (d1 i s))
      (D2 F (x i + cubic a b c i h) (d1 i h) (d1 i h) + D1 F (x i + cubic a b c i h) (d2 i h)) h :=
    fun i h hh => (g1 i h hh).clm_apply (e2 i h)
  have f3 : ∀ i h, |h| ≤ r → HasDerivAt
      (fun s => D2 F (x i + cubic a b c i s) (d1 i s) (d1 i s) + D1 F (x i + cubic a b c i s) (d2 i s))
      (((D3 F (x i + cubic a b c i h) (d1 i h) (d1 i h) + D2 F (x i + cubic a b c i h) (d2 i h)) (d1 i h) +
        D2 F (x i + cubic a b c i h) (d1 i h) (d2 i h)) +
        (D2 F (x i + cubic a b c i h) (d1 i h) (d2 i h) + D1 F (x i + cubic a b c i h) (d3 i h))) h :=
    fun i h hh => (((g2 i h hh).clm_apply (e2 i h)).clm_apply (e2 i h)).add ((g1 i h hh).clm_apply (e3 i h))
  -- first-order behaviour of the ingredients
  have l1 : UO 1 (fun i h => D1 F (x i + cubic a b c i h) - D1 F (x i)) :=
    (UO.lip (K := D1 F) (K' := D2 F) hε (fun i z hz => ⟨d2_at (hF i z hz).1, (hF i z hz).2.2.2.1⟩) (n := 0)
      (UO.zero (ι := ι) 1) hδ).congr' fun i h => by simp
  have l2 : UO 1 (fun i h => D2 F (x i + cubic a b c i h) - D2 F (x i)) :=
    (UO.lip (K := D2 F) (K' := D3 F) hε (fun i z hz => ⟨d3_at (hF i z hz).1, (hF i z hz).2.2.2.2.1⟩) (n := 0)
      (UO.zero (ι := ι) 1) hδ).congr' fun i h => by simp
  have l3 : UO 1 (fun i h => D3 F (x i + cubic a b c i h) - D3 F (x i)) :=
    (UO.lip (K := D3 F) (K' := D4 F) hε (fun i z hz => ⟨d4_at (hF i z hz).1, (hF i z hz).2.2.2.2.2⟩) (n := 0)
      (UO.zero (ι := ι) 1) hδ).congr' fun i h => by simp
  have v1 : UO 1 (fun i h => d1 i h - a i) :=
    (((hb.smul 2).pow 1).add (((hc.smul 3).pow 2).mono (by norm_num))).congr' fun i h => by simp only [d1]; module
  have v2 : UO 1 (fun i h => d2 i h - (2 : ℝ) • b i) :=
    (((hc.smul 6).pow 1)).congr' fun i h => by simp only [d2]; module
  have v3 : UO 1 (fun i h => d3 i h - (6 : ℝ) • c i) := (UO.zero (ι := ι) 1).congr' fun i h => by simp [d3]
  have hb2 := hb.smul 2
  have hc6 := hc.smul 6
  have t1 := UO.app (UO.app (UO.app l3 v1 b3 ha) v1 (b3.app ha) ha) v1 ((b3.app ha).app ha) ha
  have t2 := UO.app (UO.app l2 v2 b2 hb2) v1 (b2.app hb2) ha
  have t3 := UO.app (UO.app l2 v1 b2 ha) v2 (b2.app ha) hb2
  have t4 := UO.app l1 v3 b1 hc6
  have s1 := UO.app l1 v1 b1 ha
  -- integrate three times
  have i3 : UO 1 (fun i h => (((D3 F (x i + cubic a b c i h) (d1 i h) (d1 i h) + D2 F (x i + cubic a b c i h) (d2 i h)) (d1 i h) +
        D2 F (x i + cubic a b c i h) (d1 i h) (d2 i h)) +
        (D2 F (x i + cubic a b c i h) (d1 i h) (d2 i h) + D1 F (x i + cubic a b c i h) (d3 i h))) -
      (D3 F (x i) (a i) (a i) (a i) + (6 : ℝ) • D2 F (x i) (a i) (b i) + (6 : ℝ) • D1 F (x i) (c i))) :=
    (((t1.add t2).add (t3.smul 2)).add t4).congr' fun i h => by
      have sy := symm_at (hF i _ (hx i)).1 (a i) (b i)
      simp only [add_apply, map_smul, smul_apply, sy]
      module
  have i2 : UO 2 (fun i h => (D2 F (x i + cubic a b c i h) (d1 i h) (d1 i h) + D1 F (x i + cubic a b c i h) (d2 i h)) -
      ((D2 F (x i) (a i) (a i) + (2 : ℝ) • D1 F (x i) (b i)) +
        h • (D3 F (x i) (a i) (a i) (a i) + (6 : ℝ) • D2 F (x i) (a i) (b i) + (6 : ℝ) • D1 F (x i) (c i)))) := by
    refine UO.integrate ⟨r, hr, fun i h hh => ?_⟩ i3 (fun i => ?_)
    · have q : HasDerivAt (fun s : ℝ => (D2 F (x i) (a i) (a i) + (2 : ℝ) • D1 F (x i) (b i)) +
          s • (D3 F (x i) (a i) (a i) (a i) + (6 : ℝ) • D2 F (x i) (a i) (b i) + (6 : ℝ) • D1 F (x i) (c i))) _ h :=
        ((hasDerivAt_id h).smul_const _).const_add _
      rw [one_smul] at q
      exact (f3 i h hh).sub q
    · simp [cubic, d1, d2]
  have i1 : UO 3 (fun i h => D1 F (x i + cubic a b c i h) (d1 i h) - (D1 F (x i) (a i) +
      h • (D2 F (x i) (a i) (a i) + (2 : ℝ) • D1 F (x i) (b i)) + h ^ 2 •
        ((1 / 2 : ℝ) • (D3 F (x i) (a i) (a i) (a i) + (6 : ℝ) • D2 F (x i) (a i) (b i) + (6 : ℝ) • D1 F (x i) (c i))))) := by
    refine UO.integrate ⟨r, hr, fun i h hh => ?_⟩ i2 (fun i => ?_)
    · have q : HasDerivAt (fun s : ℝ => D1 F (x i) (a i) + s • (D2 F (x i) (a i) (a i) + (2 : ℝ) • D1 F (x i) (b i)) + s ^ 2 •
          ((1 / 2 : ℝ) • (D3 F (x i) (a i) (a i) (a i) + (6 : ℝ) • D2 F (x i) (a i) (b i) + (6 : ℝ) • D1 F (x i) (c i)))) _ h :=
        (((hasDerivAt_id h).smul_const _).const_add _).add ((hasDerivAt_pow 2 h).smul_const _)
      refine (f2 i h hh).sub (q.congr_deriv ?_)
      norm_num
      module
    · simp [cubic, d1]
  refine UO.integrate (f' := fun i h => D1 F (x i + cubic a b c i h) (d1 i h) - (D1 F (x i) (a i) +
      h • (D2 F (x i) (a i) (a i) + (2 : ℝ) • D1 F (x i) (b i)) + h ^ 2 •
        ((1 / 2 : ℝ) • (D3 F (x i) (a i) (a i) (a i) + (6 : ℝ) • D2 F (x i) (a i) (b i) + (6 : ℝ) • D1 F (x i) (c i)))))
    ⟨r, hr, fun i h hh => ?_⟩ i1 (fun i => ?_)
  · have q : HasDerivAt (fun s : ℝ => along F x a b c i s) _ h :=
      (((((hasDerivAt_id h).smul_const _).const_add _).add ((hasDerivAt_pow 2 h).smul_const _)).add
        ((hasDerivAt_pow 3 h).smul_const _))
    refine (f1 i h hh).sub (q.congr_deriv ?_)
    norm_num
    module
  · simp [along, cubic]

/-- the expansion is not affected by a perturbation of the same order -/
theorem expand_add {F : E → G} {x a b c : ι → E} (hF : Reg F x) (ha : Bdd a) (hb : Bdd b) (hc : Bdd c) {n : ℕ} (hn : n < 4)
    {e : ι → ℝ → E} (he : UO (n + 1) e) :
    UO (n + 1) (fun i h => F (x i + (cubic a b c i h + e i h)) - along F x a b c i h) := by
  have h1 := (expand hF ha hb hc).mono (by omega : n + 1 ≤ 4)
  obtain ⟨ε, M, hε, hF⟩ := hF
  have h2 := UO.lip (K := F) (K' := D1 F) hε (fun i z hz => ⟨d1_at (hF i z hz).1, (hF i z hz).2.2.1⟩)
    (cubic_uo ha hb hc) he
  exact (h1.add h2).congr' fun i h => by abel

theorem Reg.value {F : E → G} {x : ι → E} (hF : Reg F x) : Bdd (fun i => F (x i)) := by
  obtain ⟨ε, M, hε, hF⟩ := hF
  exact ⟨M, fun i => (hF i (x i) (by simpa using hε)).2.1⟩
theorem Reg.first {F : E → G} {x a : ι → E} (hF : Reg F x) (ha : Bdd a) : Bdd (fun i => D1 F (x i) (a i)) := by
  obtain ⟨ε, M, hε, hF⟩ := hF
  exact Bdd.app ⟨M, fun i => (hF i (x i) (by simpa using hε)).2.2.1⟩ ha
theorem Reg.second {F : E → G} {x a b : ι → E} (hF : Reg F x) (ha : Bdd a) (hb : Bdd b) :
    Bdd (fun i => D2 F (x i) (a i) (b i)) := by
  obtain ⟨ε, M, hε, hF⟩ := hF
  exact Bdd.app (Bdd.app ⟨M, fun i => (hF i (x i) (by simpa using hε)).2.2.2.1⟩ ha) hb
theorem Reg.third {F : E → G} {x a b c : ι → E} (hF : Reg F x) (ha : Bdd a) (hb : Bdd b) (hc : Bdd c) :
    Bdd (fun i => D3 F (x i) (a i) (b i) (c i)) := by
  obtain ⟨ε, M, hε, hF⟩ := hF
  exact Bdd.app (Bdd.app (Bdd.app ⟨M, fun i => (hF i (x i) (by simpa using hε)).2.2.2.2.1⟩ ha) hb) hc

/-! ### Solutions -/

/-- for each start point a solution of the equation, with bounded slopes, on a common interval around zero -/
structure Flow (F : E → E) (x : ι → E) (y : ι → ℝ → E) : Prop where
  start : ∀ i, y i 0 = x i
  solves : ∃ r : ℝ, 0 < r ∧ ∀ i h, |h| ≤ r → HasDerivAt (y i) (F (y i h)) h
  slope : UO 0 (fun i h => F (y i h))

/-- quartic polynomial -/
def quartic (x a b c d : ι → E) (i : ι) (h : ℝ) : E := x i + (cubic a b c i h + h ^ 4 • d i)

theorem quartic_deriv (x a b c d : ι → E) (i : ι) (h : ℝ) :
    HasDerivAt (quartic x a b c d i) (a i + (2 * h) • b i + (3 * h ^ 2) • c i + (4 * h ^ 3) • d i) h := by
  have q : HasDerivAt (fun s : ℝ => x i + ((s • a i + s ^ 2 • b i + s ^ 3 • c i) + s ^ 4 • d i)) _ h :=
    ((((((hasDerivAt_id h).smul_const (a i)).add ((hasDerivAt_pow 2 h).smul_const (b i))).add
        ((hasDerivAt_pow 3 h).smul_const (c i)))).add ((hasDerivAt_pow 4 h).smul_const (d i))).const_add (x i)
  refine q.congr_deriv ?_
  norm_num

theorem Flow.raise {F : E → E} {x : ι → E} {y : ι → ℝ → E} (hy : Flow F x y) {a b c d : ι → E} {n : ℕ}
    (h : UO n (fun i h => F (y i h) - (a i + (2 * h) • b i + (3 * h ^ 2) • c i + (4 * h ^ 3) • d i))) :
    UO (n + 1) (fun i h => y i h - quartic x a b c d i h) := by
  obtain ⟨r, hr, hs⟩ := hy.solves
  refine UO.integrate ⟨r, hr, fun i h hh => (hs i h hh).sub (quartic_deriv x a b c d i h)⟩ h (fun i => ?_)
  simp [hy.start, quartic, cubic]

/-- the coefficients of a solution -/
noncomputable def c2 (F : E → E) (x : ι → E) (i : ι) : E := (1 / 2 : ℝ) • D1 F (x i) (F (x i))
noncomputable def c3 (F : E → E) (x : ι → E) (i : ι) : E :=
  (1 / 3 : ℝ) • (D1 F (x i) (c2 F x i) + (1 / 2 : ℝ) • D2 F (x i) (F (x i)) (F (x i)))
noncomputable def c4 (F : E → E) (x : ι → E) (i : ι) : E :=
  (1 / 4 : ℝ) • (D1 F (x i) (c3 F x i) + D2 F (x i) (F (x i)) (c2 F x i) +
    (1 / 6 : ℝ) • D3 F (x i) (F (x i)) (F (x i)) (F (x i)))

theorem Flow.near {F : E → E} {x : ι → E} {y : ι → ℝ → E} (hy : Flow F x y) : UO 1 (fun i h => y i h - x i) := by
  have := hy.raise (a := fun _ => 0) (b := fun _ => 0) (c := fun _ => 0) (d := fun _ => 0) (hy.slope.congr' fun i h => by simp)
  exact this.congr' fun i h => by simp [quartic, cubic]

theorem Flow.expand {F : E → E} {x : ι → E} {y : ι → ℝ → E} (hF : Reg F x) (hy : Flow F x y) :
    UO 5 (fun i h => y i h - quartic x (fun i => F (x i)) (c2 F x) (c3 F x) (c4 F x) i h) := by
  have z : Bdd (fun _ : ι => (0 : E)) := ⟨0, fun i => by simp⟩
  have bA := hF.value
  have b2 : Bdd (c2 F x) := (hF.first bA).smul _
  have b3 : Bdd (c3 F x) := ((hF.first b2).add ((hF.second bA bA).smul _)).smul _
  have bD := hF.second bA bA
  have bT := hF.third bA bA bA
  have y1 := hy.near
  have y2 : UO 2 (fun i h => y i h - quartic x (fun i => F (x i)) (fun _ => 0) (fun _ => 0) (fun _ => 0) i h) := by
    refine hy.raise ((expand_add hF z z z (by norm_num : 0 < 4) y1).congr' fun i h => ?_)
    simp [along, cubic]
  have y3 : UO 3 (fun i h => y i h - quartic x (fun i => F (x i)) (c2 F x) (fun _ => 0) (fun _ => 0) i h) := by
    refine hy.raise (((expand_add hF bA z z (by norm_num : 1 < 4) y2).add ((((bD.smul (1 / 2)).pow 2)).add
      (((bT.smul (1 / 6)).pow 3).mono (by norm_num)))).congr' fun i h => ?_)
    have e : x i + (cubic (fun i => F (x i)) (fun _ => 0) (fun _ => 0) i h +
        (y i h - quartic x (fun i => F (x i)) (fun _ => 0) (fun _ => 0) (fun _ => 0) i h)) = y i h := by
      simp only [quartic, smul_zero, add_zero]; abel
    simp only [e, along, c2, map_zero, zero_add, add_zero, smul_zero]
    module
  have y4 : UO 4 (fun i h => y i h - quartic x (fun i => F (x i)) (c2 F x) (c3 F x) (fun _ => 0) i h) := by
    refine hy.raise (((expand_add hF bA b2 z (by norm_num : 2 < 4) y3).add
      ((((hF.second bA b2).add (bT.smul (1 / 6))).pow 3))).congr' fun i h => ?_)
    have e : x i + (cubic (fun i => F (x i)) (c2 F x) (fun _ => 0) i h +
        (y i h - quartic x (fun i => F (x i)) (c2 F x) (fun _ => 0) (fun _ => 0) i h)) = y i h := by
      simp only [quartic, smul_zero, add_zero]; abel
    simp only [e, along, c3, map_zero, zero_add, add_zero, smul_zero]
    simp only [c2, map_smul, smul_apply]
    module
  refine hy.raise ((expand_add hF bA b2 b3 (by norm_num : 3 < 4) y4).congr' fun i h => ?_)
  have e : x i + (cubic (fun i => F (x i)) (c2 F x) (c3 F x) i h +
      (y i h - quartic x (fun i => F (x i)) (c2 F x) (c3 F x) (fun _ => 0) i h)) = y i h := by
    simp only [quartic, smul_zero, add_zero]; abel
  simp only [e, along, c4]
  simp only [c3, c2, map_smul, map_add, smul_apply]
  module

/-! ### The schemes -/

/-- one classical Runge-Kutta step -/
noncomputable def rk4 (F : E → E) (x : E) (h : ℝ) : E :=
  let k1 := h • F x
  let k2 := h • F (x + (1 / 2 : ℝ) • k1)
  let k3 := h • F (x + (1 / 2 : ℝ) • k2)
  let k4 := h • F (x + k3)
  x + (1 / 6 : ℝ) • (k1 + (2 : ℝ) • k2 + (2 : ℝ) • k3 + k4)

/-- one step of Heun -/
noncomputable def heun (F : E → E) (x : E) (h : ℝ) : E := x + (1 / 2 * h) • (F x + F (x + h • F x))

/-- one step of Euler -/
noncomputable def euler (F : E → E) (x : E) (h : ℝ) : E := x + h • F x

theorem euler_local {F : E → E} {x : ι → E} {y : ι → ℝ → E} (hF : Reg F x) (hy : Flow F x y) :
    UO 2 (fun i h => y i h - euler F (x i) h) := by
  have bA := hF.value
  have b2 : Bdd (c2 F x) := (hF.first bA).smul _
  have b3 : Bdd (c3 F x) := ((hF.first b2).add ((hF.second bA bA).smul _)).smul _
  have b4 : Bdd (c4 F x) :=
    (((hF.first b3).add (hF.second bA b2)).add ((hF.third bA bA bA).smul _)).smul _
  refine (((hy.expand hF).mono (by norm_num)).add ((b2.pow 2).add (((b3.pow 3).mono (by norm_num)).add
    ((b4.pow 4).mono (by norm_num))))).congr' fun i h => ?_
  simp only [euler, quartic, cubic]
  module

theorem heun_local {F : E → E} {x : ι → E} {y : ι → ℝ → E} (hF : Reg F x) (hy : Flow F x y) :
    UO 3 (fun i h => y i h - heun F (x i) h) := by
  have z : Bdd (fun _ : ι => (0 : E)) := ⟨0, fun i => by simp⟩
  have bA := hF.value
  have b2 : Bdd (c2 F x) := (hF.first bA).smul _
  have b3 : Bdd (c3 F x) := ((hF.first b2).add ((hF.second bA bA).smul _)).smul _
  have b4 : Bdd (c4 F x) :=
    (((hF.first b3).add (hF.second bA b2)).add ((hF.third bA bA bA).smul _)).smul _
  have k := ((expand_add hF bA z z (by norm_num : 1 < 4) (UO.zero (ι := ι) 2)).step).smul (-1 / 2)
  have k' := (((hF.second bA bA).smul (-1 / 4)).pow 3).add ((((hF.third bA bA bA).smul (-1 / 12)).pow 4).mono
    (by norm_num : 3 ≤ 4))
  refine (((hy.expand hF).mono (by norm_num)).add ((k.add k').add (((b3.pow 3)).add
    ((b4.pow 4).mono (by norm_num))))).congr' fun i h => ?_
  have e : cubic (fun i => F (x i)) (fun _ => 0) (fun _ => 0) i h + 0 = h • F (x i) := by simp [cubic]
  simp only [e, heun, quartic, along, map_zero, zero_add, add_zero, smul_zero]
  simp only [cubic, c2]
  module

theorem rk4_local {F : E → E} {x : ι → E} {y : ι → ℝ → E} (hF : Reg F x) (hy : Flow F x y) :
    UO 5 (fun i h => y i h - rk4 F (x i) h) := by
  have z : Bdd (fun _ : ι => (0 : E)) := ⟨0, fun i => by simp⟩
  have bA := hF.value
  have bL := hF.first bA
  have bLL := hF.first bL
  have bD := hF.second bA bA
  have bT := hF.third bA bA bA
  -- second stage
  have k2 := expand_add hF (bA.smul (1 / 2)) z z (by norm_num : 3 < 4) (UO.zero (ι := ι) 4)
  have k2' : UO 4 (fun i h => F (x i + (1 / 2 : ℝ) • h • F (x i)) - (F (x i) + h • (1 / 2 : ℝ) • D1 F (x i) (F (x i)) +
      h ^ 2 • (1 / 8 : ℝ) • D2 F (x i) (F (x i)) (F (x i)) +
      h ^ 3 • (1 / 48 : ℝ) • D3 F (x i) (F (x i)) (F (x i)) (F (x i)))) := by
    refine k2.congr' fun i h => ?_
    have e : cubic (fun i => (1 / 2 : ℝ) • F (x i)) (fun _ => 0) (fun _ => 0) i h + 0 = (1 / 2 : ℝ) • h • F (x i) := by
      simp only [cubic]; module
    simp only [e, along, map_zero, map_smul, smul_apply, zero_add, add_zero, smul_zero]
    module
  have e2 : UO 4 (fun i h => (1 / 2 : ℝ) • h • F (x i + (1 / 2 : ℝ) • h • F (x i)) -
      cubic (fun i => (1 / 2 : ℝ) • F (x i)) (fun i => (1 / 4 : ℝ) • D1 F (x i) (F (x i)))
        (fun i => (1 / 16 : ℝ) • D2 F (x i) (F (x i)) (F (x i))) i h) :=
    (((k2'.step).mono (by norm_num : 4 ≤ 5)).smul (1 / 2)).add ((bT.smul (1 / 96)).pow 4) |>.congr' fun i h => by
      simp only [cubic]; module
  -- third stage
  have k3 := expand_add hF (bA.smul (1 / 2)) (bL.smul (1 / 4)) (bD.smul (1 / 16)) (by norm_num : 3 < 4) e2
  have k3' : UO 4 (fun i h => F (x i + (1 / 2 : ℝ) • h • F (x i + (1 / 2 : ℝ) • h • F (x i))) - (F (x i) +
      h • (1 / 2 : ℝ) • D1 F (x i) (F (x i)) +
      h ^ 2 • ((1 / 4 : ℝ) • D1 F (x i) (D1 F (x i) (F (x i))) + (1 / 8 : ℝ) • D2 F (x i) (F (x i)) (F (x i))) +
      h ^ 3 • ((1 / 16 : ℝ) • D1 F (x i) (D2 F (x i) (F (x i)) (F (x i))) +
        (1 / 8 : ℝ) • D2 F (x i) (F (x i)) (D1 F (x i) (F (x i))) +
        (1 / 48 : ℝ) • D3 F (x i) (F (x i)) (F (x i)) (F (x i))))) := by
    refine k3.congr' fun i h => ?_
    rw [add_sub_cancel]
    simp only [along, map_smul, smul_apply]
    module
  have e3 : UO 4 (fun i h => h • F (x i + (1 / 2 : ℝ) • h • F (x i + (1 / 2 : ℝ) • h • F (x i))) -
      cubic (fun i => F (x i)) (fun i => (1 / 2 : ℝ) • D1 F (x i) (F (x i)))
        (fun i => (1 / 4 : ℝ) • D1 F (x i) (D1 F (x i) (F (x i))) + (1 / 8 : ℝ) • D2 F (x i) (F (x i)) (F (x i))) i h) :=
    ((k3'.step).mono (by norm_num : 4 ≤ 5)).add (((((hF.first bD).smul (1 / 16)).add ((hF.second bA bL).smul (1 / 8))).add
      (bT.smul (1 / 48))).pow 4) |>.congr' fun i h => by
      simp only [cubic]; module
  -- fourth stage
  have k4 := expand_add hF bA (bL.smul (1 / 2)) ((bLL.smul (1 / 4)).add (bD.smul (1 / 8))) (by norm_num : 3 < 4) e3
  have k4' : UO 4 (fun i h => F (x i + h • F (x i + (1 / 2 : ℝ) • h • F (x i + (1 / 2 : ℝ) • h • F (x i)))) - (F (x i) +
      h • D1 F (x i) (F (x i)) +
      h ^ 2 • ((1 / 2 : ℝ) • D1 F (x i) (D1 F (x i) (F (x i))) + (1 / 2 : ℝ) • D2 F (x i) (F (x i)) (F (x i))) +
      h ^ 3 • ((1 / 4 : ℝ) • D1 F (x i) (D1 F (x i) (D1 F (x i) (F (x i)))) +
        (1 / 8 : ℝ) • D1 F (x i) (D2 F (x i) (F (x i)) (F (x i))) +
        (1 / 2 : ℝ) • D2 F (x i) (F (x i)) (D1 F (x i) (F (x i))) +
        (1 / 6 : ℝ) • D3 F (x i) (F (x i)) (F (x i)) (F (x i))))) := by
    refine k4.congr' fun i h => ?_
    rw [add_sub_cancel]
    simp only [along, map_smul, map_add, smul_apply]
  have s := (((k2'.smul (-2 / 6)).add (k3'.smul (-2 / 6))).add (k4'.smul (-1 / 6))).step
  refine ((hy.expand hF).add s).congr' fun i h => ?_
  simp only [rk4, quartic, cubic, c2, c3, c4, map_smul, map_add, smul_apply]
  module

end Order
