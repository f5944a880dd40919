import Verif.Spec.Llgb
import Mathlib.Analysis.Calculus.Deriv.MeanValue
import Mathlib.Analysis.SpecialFunctions.Trigonometric.DerivHyp
import Mathlib.Analysis.SpecialFunctions.Exp

/-! # C45, C65: the Langevin function and the Curie–Weiss iteration -/

set_option linter.unusedSectionVars false

namespace LLGB
open Spec

section
variable {T : Type} [Scalar T]

/-- helper: the loop from the `i`-th iterate -/
theorem weissLoop_spec (beta J0 r tol est : T) (F : T → T) (hF : ∀ y, F y = langevin (beta * J0 * y)) (n i : Nat) (err : T) :
    (n = 0 ∧ weissLoop beta J0 r tol n (relaxed F r est i) err = (relaxed F r est i, err)) ∨
    ∃ k < n, (∀ q < k, Scalar.ltb (Scalar.abs (F (relaxed F r est (i + q)) - relaxed F r est (i + q))) tol = false) ∧
      weissLoop beta J0 r tol n (relaxed F r est i) err =
        (if Scalar.ltb (Scalar.abs (F (relaxed F r est (i + k)) - relaxed F r est (i + k))) tol then F (relaxed F r est (i + k))
          else relaxed F r est (i + n), Scalar.abs (F (relaxed F r est (i + k)) - relaxed F r est (i + k))) ∧
      (Scalar.ltb (Scalar.abs (F (relaxed F r est (i + k)) - relaxed F r est (i + k))) tol = true ∨ k + 1 = n) := by
  induction n generalizing i err with
  | zero => exact .inl ⟨rfl, rfl⟩
  | succ n ih =>
    right
    simp only [weissLoop, ← hF]
    split
    · rename_i h
      exact ⟨0, by omega, by simp, by simp [h], .inl (by simpa using h)⟩
    · rename_i h
      rw [Bool.not_eq_true] at h
      have e : r * F (relaxed F r est i) + (1 - r) * relaxed F r est i = relaxed F r est (i + 1) := rfl
      rw [e]
      rcases ih (i + 1) (Scalar.abs (F (relaxed F r est i) - relaxed F r est i)) with ⟨rfl, h1⟩ | ⟨k, hk, h1, h2, h3⟩
      · exact ⟨0, by omega, by simp, by simp [h, h1], .inr rfl⟩
      · refine ⟨k + 1, by omega, ?_, ?_, ?_⟩
        · intro q hq
          cases q with
          | zero => exact h
          | succ q => have := h1 q (by omega); rwa [show i + 1 + q = i + (q + 1) by omega] at this
        · rw [h2, show i + 1 + k = i + (k + 1) by omega, show i + 1 + n = i + (n + 1) by omega]
        · rw [show i + 1 + k = i + (k + 1) by omega] at h3
          rcases h3 with h3 | h3
          · exact .inl h3
          · exact .inr (by omega)

/-- C45: the iteration stops at the first iterate whose image under the mean-field map is closer than the tolerance, and
after `maxIter` iterations at the latest; it reports the distance of the last iterate it evaluated to its image. -/
theorem C45_stops (est temp J0 r tol : T) (maxIter : Nat) (hm : maxIter ≠ 0) (F : T → T)
    (hF : ∀ y, F y = 1.0 / Scalar.tanh (1.0 / (Const.boltzmann * temp) * J0 * y) - 1.0 / (1.0 / (Const.boltzmann * temp) * J0 * y)) :
    ∃ k < maxIter, let y := relaxed F r est k
      (∀ q < k, Scalar.ltb (Scalar.abs (F (relaxed F r est q) - relaxed F r est q)) tol = false) ∧
      (MFAWeissCurie est temp J0 r tol maxIter).2 = Scalar.abs (F y - y) ∧
      (if Scalar.ltb (Scalar.abs (F y - y)) tol then (MFAWeissCurie est temp J0 r tol maxIter).1 = F y
       else k + 1 = maxIter ∧ (MFAWeissCurie est temp J0 r tol maxIter).1 = relaxed F r est maxIter) := by
  rcases weissLoop_spec (1.0 / (Const.boltzmann * temp)) J0 r tol est F hF maxIter 0 0 with ⟨h, -⟩ | ⟨k, hk, h1, h2, h3⟩
  · exact absurd h hm
  · simp only [Nat.zero_add] at h1 h2 h3
    refine ⟨k, hk, h1, ?_, ?_⟩
    · exact congrArg Prod.snd h2
    · have h4 : (MFAWeissCurie est temp J0 r tol maxIter).1 = _ := congrArg Prod.fst h2
      rw [h4]
      split
      · rfl
      · rename_i h; exact ⟨h3.resolve_left h, rfl⟩

/-- C45: when the reported error is below the tolerance, the returned value is the image of the last iterate and that close to it. -/
theorem C45_reported (est temp J0 r tol : T) (maxIter : Nat) (hm : maxIter ≠ 0)
    (h : Scalar.ltb (MFAWeissCurie est temp J0 r tol maxIter).2 tol = true) :
    ∃ y, (MFAWeissCurie est temp J0 r tol maxIter).1 = langevin (1.0 / (Const.boltzmann * temp) * J0 * y) ∧
      (MFAWeissCurie est temp J0 r tol maxIter).2 = Scalar.abs ((MFAWeissCurie est temp J0 r tol maxIter).1 - y) := by
  obtain ⟨k, -, -, h2, h3⟩ := C45_stops est temp J0 r tol maxIter hm (fun y => langevin (1.0 / (Const.boltzmann * temp) * J0 * y))
    (fun _ => rfl)
  rw [← h2, if_pos h] at h3
  exact ⟨_, h3, by rw [h3, h2]⟩

/-- C45: an iteration limit of 0 is accepted: the start value is returned with a reported error of 0, which claims a convergence that
never took place. -/
theorem C45_no_iterations (est temp J0 r tol : T) : MFAWeissCurie est temp J0 r tol 0 = (est, 0) := rfl

end

/-! ## C65: the Langevin function -/

/-- helper -/
theorem sinh_ne {x : ℝ} (h : x ≠ 0) : Real.sinh x ≠ 0 := fun h0 => h (Real.sinh_eq_zero.1 h0)

/-- helper -/
theorem langevin_eq (x : ℝ) : LLGB.langevin x = Spec.langevin x := by
  simp only [LLGB.langevin, Spec.langevin, Scalar.ofSci_real_true, Scalar.tanh_real, Real.tanh_eq_sinh_div_cosh]
  norm_num

/-- C65: `langevin` is the Langevin function, which is odd. -/
theorem C65_langevin (x : ℝ) : LLGB.langevin x = Spec.langevin x ∧ LLGB.langevin (-x) = -LLGB.langevin x := by
  refine ⟨langevin_eq x, ?_⟩
  rw [langevin_eq, langevin_eq, Spec.langevin, Spec.langevin, Real.cosh_neg, Real.sinh_neg, div_neg, div_neg]
  ring

/-- C65: `langevinDerivative` is the derivative of `langevin` away from 0. -/
theorem C65_derivative {x : ℝ} (hx : x ≠ 0) : HasDerivAt (LLGB.langevin : ℝ → ℝ) (LLGB.langevinDerivative x) x := by
  have hs := sinh_ne hx
  have h1 : HasDerivAt (fun y => Real.cosh y / Real.sinh y - 1 / y)
      ((Real.sinh x * Real.sinh x - Real.cosh x * Real.cosh x) / Real.sinh x ^ 2 - (0 * x - 1 * 1) / x ^ 2) x :=
    ((Real.hasDerivAt_cosh x).div (Real.hasDerivAt_sinh x) hs).sub ((hasDerivAt_const x (1 : ℝ)).div (hasDerivAt_id x) hx)
  have e : (LLGB.langevin : ℝ → ℝ) = fun y => Real.cosh y / Real.sinh y - 1 / y := funext langevin_eq
  rw [e]
  refine h1.congr_deriv ?_
  simp only [langevinDerivative, Scalar.ofSci_real_true, Scalar.ofNat_real, Scalar.powi_real, Scalar.sinh_real, Nat.cast_one]
  have hc := Real.cosh_sq x
  have : Real.sinh x * Real.sinh x - Real.cosh x * Real.cosh x = -1 := by nlinarith
  rw [this]
  norm_num
  ring

/-- helper: a function with non-negative derivative and value 0 at 0 -/
theorem nonneg_of_deriv {f f' : ℝ → ℝ} (hf : ∀ x, HasDerivAt f (f' x) x) (h0 : f 0 = 0) (hp : ∀ x, 0 ≤ x → 0 ≤ f' x) {x : ℝ}
    (hx : 0 ≤ x) : 0 ≤ f x := by
  have hm : MonotoneOn f (Set.Ici 0) := by
    refine monotoneOn_of_deriv_nonneg (convex_Ici 0) (fun y _ => (hf y).continuousAt.continuousWithinAt)
      (fun y _ => (hf y).differentiableAt.differentiableWithinAt) fun y hy => ?_
    rw [interior_Ici] at hy
    rw [(hf y).deriv]
    exact hp y (le_of_lt hy)
  have := hm (Set.mem_Ici.2 le_rfl) (Set.mem_Ici.2 hx) hx
  rwa [h0] at this

/-- helper -/
theorem sinh_le_mul_cosh {x : ℝ} (hx : 0 ≤ x) : 0 ≤ x * Real.cosh x - Real.sinh x := by
  refine nonneg_of_deriv (f := fun x => x * Real.cosh x - Real.sinh x) (f' := fun x => x * Real.sinh x) (fun y => ?_) (by simp)
    (fun y hy => mul_nonneg hy (Real.sinh_nonneg_iff.2 hy)) hx
  refine (((hasDerivAt_id y).mul (Real.hasDerivAt_cosh y)).sub (Real.hasDerivAt_sinh y)).congr_deriv ?_
  simp

/-- helper: `(cosh y - 1) (12 - y²) ≤ 6 y²` -/
theorem cosh_bound {y : ℝ} (hy : 0 ≤ y) : 0 ≤ 6 * y ^ 2 - (Real.cosh y - 1) * (12 - y ^ 2) := by
  have h3 : ∀ x, 0 ≤ x → 0 ≤ -6 * Real.sinh x + 6 * (x * Real.cosh x) + x ^ 2 * Real.sinh x := fun x hx => by
    have h1 := sinh_le_mul_cosh hx
    have h2 : 0 ≤ x ^ 2 * Real.sinh x := mul_nonneg (sq_nonneg x) (Real.sinh_nonneg_iff.2 hx)
    linarith
  have hsq : ∀ x : ℝ, HasDerivAt (fun x => x ^ 2) (2 * x) x := fun x => by simpa using hasDerivAt_pow 2 x
  have h2 : ∀ x, 0 ≤ x → 0 ≤ 10 - 10 * Real.cosh x + 4 * (x * Real.sinh x) + x ^ 2 * Real.cosh x := fun x hx => by
    refine nonneg_of_deriv (f := fun x => 10 - 10 * Real.cosh x + 4 * (x * Real.sinh x) + x ^ 2 * Real.cosh x) (fun z => ?_) (by simp)
      h3 hx
    refine ((((hasDerivAt_const z (10 : ℝ)).sub ((Real.hasDerivAt_cosh z).const_mul 10)).add
      (((hasDerivAt_id z).mul (Real.hasDerivAt_sinh z)).const_mul 4)).add ((hsq z).mul (Real.hasDerivAt_cosh z))).congr_deriv ?_
    simp; ring
  have h1 : ∀ x, 0 ≤ x → 0 ≤ 10 * x - 12 * Real.sinh x + x ^ 2 * Real.sinh x + 2 * (x * Real.cosh x) := fun x hx => by
    refine nonneg_of_deriv (f := fun x => 10 * x - 12 * Real.sinh x + x ^ 2 * Real.sinh x + 2 * (x * Real.cosh x)) (fun z => ?_)
      (by simp) h2 hx
    refine (((((hasDerivAt_id z).const_mul (10 : ℝ)).sub ((Real.hasDerivAt_sinh z).const_mul 12)).add
      ((hsq z).mul (Real.hasDerivAt_sinh z))).add (((hasDerivAt_id z).mul (Real.hasDerivAt_cosh z)).const_mul 2)).congr_deriv ?_
    simp; ring
  refine nonneg_of_deriv (f := fun y => 6 * y ^ 2 - (Real.cosh y - 1) * (12 - y ^ 2)) (fun z => ?_) (by simp) h1 hy
  refine (((hsq z).const_mul (6 : ℝ)).sub (((Real.hasDerivAt_cosh z).sub (hasDerivAt_const z (1 : ℝ))).mul
    ((hasDerivAt_const z (12 : ℝ)).sub (hsq z)))).congr_deriv ?_
  simp; ring

/-- helper -/
theorem sinh_sq_bound {x : ℝ} (hx : 0 ≤ x) : Real.sinh x ^ 2 * (3 - x ^ 2) ≤ 3 * x ^ 2 := by
  have h := cosh_bound (y := 2 * x) (by linarith)
  have e : Real.cosh (2 * x) - 1 = 2 * Real.sinh x ^ 2 := by rw [Real.cosh_two_mul, Real.cosh_sq]; ring
  rw [e] at h
  nlinarith

/-- C65: the derivative is positive and at most 1/3. -/
theorem C65_slope {x : ℝ} (hx : x ≠ 0) : 0 < (langevinDerivative x : ℝ) ∧ (langevinDerivative x : ℝ) ≤ 1 / 3 := by
  have hs := sinh_ne hx
  have key : ∀ x : ℝ, 0 < x → 0 < 1 / x ^ 2 - 1 / Real.sinh x ^ 2 ∧ 1 / x ^ 2 - 1 / Real.sinh x ^ 2 ≤ 1 / 3 := by
    intro x hx
    have hp : 0 < Real.sinh x := Real.sinh_pos_iff.2 hx
    have hl : x < Real.sinh x := Real.self_lt_sinh_iff.2 hx
    constructor
    · rw [sub_pos]
      exact one_div_lt_one_div_of_lt (by positivity) (by nlinarith)
    · rw [div_sub_div _ _ (by positivity) (by positivity), div_le_div_iff₀ (by positivity) (by norm_num)]
      have := sinh_sq_bound hx.le
      nlinarith
  have e : (langevinDerivative x : ℝ) = 1 / x ^ 2 - 1 / Real.sinh x ^ 2 := by
    simp only [langevinDerivative, Scalar.ofSci_real_true, Scalar.ofNat_real, Scalar.powi_real, Scalar.sinh_real, Nat.cast_one]
    norm_num; ring
  rw [e]
  rcases lt_or_gt_of_ne hx with h | h
  · have := key (-x) (by linarith)
    rwa [Real.sinh_neg, neg_sq, neg_sq] at this
  · exact key x h

/-- helper -/
theorem cube_le {x : ℝ} (hx : 0 ≤ x) : x ^ 3 / 3 ≤ x * Real.cosh x - Real.sinh x := by
  have := nonneg_of_deriv (f := fun x => x * Real.cosh x - Real.sinh x - x ^ 3 / 3) (f' := fun x => x * (Real.sinh x - x)) (fun y => by
      refine ((((hasDerivAt_id y).mul (Real.hasDerivAt_cosh y)).sub (Real.hasDerivAt_sinh y)).sub
        ((hasDerivAt_pow 3 y).div_const 3)).congr_deriv ?_
      simp; ring) (by simp)
    (fun y hy => mul_nonneg hy (sub_nonneg.2 (Real.self_le_sinh_iff.2 hy))) hx
  simpa using this

/-- helper -/
theorem fifth_le {x : ℝ} (hx : 0 ≤ x) : x ^ 5 / 15 ≤ (3 + x ^ 2) * Real.sinh x - 3 * (x * Real.cosh x) := by
  have := nonneg_of_deriv (f := fun x => (3 + x ^ 2) * Real.sinh x - 3 * (x * Real.cosh x) - x ^ 5 / 15)
    (f' := fun x => x * (x * Real.cosh x - Real.sinh x - x ^ 3 / 3)) (fun y => by
      refine ((((((hasDerivAt_const y (3 : ℝ)).add (hasDerivAt_pow 2 y)).mul (Real.hasDerivAt_sinh y)).sub
        (((hasDerivAt_id y).mul (Real.hasDerivAt_cosh y)).const_mul 3))).sub ((hasDerivAt_pow 5 y).div_const 15)).congr_deriv ?_
      simp; ring) (by simp) (fun y hy => mul_nonneg hy (sub_nonneg.2 (cube_le hy))) hx
  simpa using this

/-- helper -/
theorem pade_le {x : ℝ} (hx : 0 ≤ x) : (3 + 2 * x ^ 2) * Real.sinh x ≤ (3 * x + x ^ 3) * Real.cosh x := by
  have := nonneg_of_deriv (f := fun x => (3 * x + x ^ 3) * Real.cosh x - (3 + 2 * x ^ 2) * Real.sinh x)
    (f' := fun x => x * (x * Real.cosh x - Real.sinh x) + x ^ 3 * Real.sinh x) (fun y => by
      refine (((((hasDerivAt_id y).const_mul (3 : ℝ)).add (hasDerivAt_pow 3 y)).mul (Real.hasDerivAt_cosh y)).sub
        (((hasDerivAt_const y (3 : ℝ)).add ((hasDerivAt_pow 2 y).const_mul 2)).mul (Real.hasDerivAt_sinh y))).congr_deriv ?_
      simp; ring) (by simp) (fun y hy => add_nonneg (mul_nonneg hy (sinh_le_mul_cosh hy))
        (mul_nonneg (by positivity) (Real.sinh_nonneg_iff.2 hy))) hx
  simpa using this

/-- C65: for positive arguments the value lies strictly between 0 and 1 and below a third of the argument. -/
theorem C65_range {x : ℝ} (hx : 0 < x) : 0 < (LLGB.langevin x : ℝ) ∧ (LLGB.langevin x : ℝ) < 1 ∧ (LLGB.langevin x : ℝ) < x / 3 := by
  have hp : 0 < Real.sinh x := Real.sinh_pos_iff.2 hx
  rw [langevin_eq, Spec.langevin]
  refine ⟨?_, ?_, ?_⟩
  · rw [sub_pos, div_lt_div_iff₀ hx hp]
    have := cube_le hx.le
    have : 0 < x ^ 3 := by positivity
    nlinarith
  · rw [sub_lt_iff_lt_add, div_lt_iff₀ hp]
    have h1 : 2 * x + 1 < Real.exp (2 * x) := Real.add_one_lt_exp (by linarith)
    have h2 : Real.exp (2 * x) = Real.exp x * Real.exp x := by rw [← Real.exp_add]; ring_nf
    have h3 : Real.cosh x - Real.sinh x = Real.exp (-x) := Real.cosh_sub_sinh x
    have h4 : Real.exp x * Real.exp (-x) = 1 := by rw [← Real.exp_add]; simp
    have h5 : x * Real.exp (-x) < Real.sinh x := by
      rw [Real.sinh_eq]
      have h6 := Real.exp_pos (-x)
      have : (2 * x + 1) * Real.exp (-x) < Real.exp x := by
        calc (2 * x + 1) * Real.exp (-x) < Real.exp (2 * x) * Real.exp (-x) := mul_lt_mul_of_pos_right h1 h6
          _ = Real.exp x := by rw [h2, mul_assoc, h4, mul_one]
      linarith
    have h7 : Real.cosh x - Real.sinh x < 1 / x * Real.sinh x := by
      rw [h3, one_div, ← div_eq_inv_mul, lt_div_iff₀ hx]; linarith
    linarith
  · rw [sub_lt_iff_lt_add, div_lt_iff₀ hp]
    have h1 := fifth_le hx.le
    have h2 : 0 < x ^ 5 := by positivity
    have h3 : 3 * (x * Real.cosh x) < (3 + x ^ 2) * Real.sinh x := by linarith
    have h4 : (x / 3 + 1 / x) * Real.sinh x = (3 + x ^ 2) * Real.sinh x / (3 * x) := by field_simp; ring
    rw [h4, lt_div_iff₀ (by positivity)]
    linarith

/-- C65: on positive arguments the function is strictly increasing and contracts distances by a factor of three. -/
theorem C65_monotone {x y : ℝ} (hx : 0 < x) (hxy : x < y) : (LLGB.langevin x : ℝ) < LLGB.langevin y ∧
    (LLGB.langevin y : ℝ) - LLGB.langevin x ≤ (y - x) / 3 := by
  obtain ⟨c, hc, he⟩ := exists_hasDerivAt_eq_slope (LLGB.langevin : ℝ → ℝ) langevinDerivative hxy
    (fun z hz => (C65_derivative (ne_of_gt (lt_of_lt_of_le hx hz.1))).continuousAt.continuousWithinAt)
    (fun z hz => C65_derivative (ne_of_gt (hx.trans hz.1)))
  obtain ⟨h1, h2⟩ := C65_slope (ne_of_gt (hx.trans hc.1))
  have hd : 0 < y - x := sub_pos.2 hxy
  rw [he] at h1 h2
  rw [div_le_iff₀ hd] at h2
  refine ⟨?_, by linarith⟩
  have := (div_pos_iff_of_pos_right hd).1 h1
  linarith

/-- C65: a positive self-consistent magnetisation exists exactly below the Curie temperature `J0 / (3 kB)`; it is below 1. -/
theorem C65_curie {temp J0 : ℝ} (hT : 0 < temp) (hJ : 0 < J0) :
    (∃ x, 0 < x ∧ x < 1 ∧ (LLGB.langevin (1.0 / (Const.boltzmann * temp) * J0 * x) : ℝ) = x) ↔ temp < J0 / (3 * Const.boltzmann) := by
  have hk : (0 : ℝ) < Const.boltzmann := by simp only [Const.boltzmann, Scalar.ofSci_real_true]; norm_num
  have hb : ∃ b : ℝ, 0 < b ∧ (∀ x : ℝ, 1.0 / (Const.boltzmann * temp) * J0 * x = b * x) ∧ (temp < J0 / (3 * Const.boltzmann) ↔ 3 < b) := by
    refine ⟨J0 / (Const.boltzmann * temp), by positivity, fun x => ?_, ?_⟩
    · simp only [Scalar.ofSci_real_true]; norm_num; left; field_simp
    · rw [lt_div_iff₀ (by positivity), lt_div_iff₀ (by positivity)]
      constructor <;> intro h <;> linarith
  obtain ⟨b, hb0, hbx, hbi⟩ := hb
  simp only [hbx, hbi]
  constructor
  · rintro ⟨x, h0, -, he⟩
    have := (C65_range (mul_pos hb0 h0)).2.2
    rw [he] at this
    have : 0 < x * (b - 3) := by linarith
    have := (mul_pos_iff_of_pos_left h0).1 this
    linarith
  · intro h3
    have hz : 0 < Real.sqrt (b - 3) := Real.sqrt_pos.2 (by linarith)
    have hz2 : Real.sqrt (b - 3) ^ 2 = b - 3 := Real.sq_sqrt (by linarith)
    set z := Real.sqrt (b - 3) with hzd
    have hlow : z / b ≤ (LLGB.langevin z : ℝ) := by
      have hp : 0 < Real.sinh z := Real.sinh_pos_iff.2 hz
      have h1 := pade_le hz.le
      rw [langevin_eq, Spec.langevin, le_sub_iff_add_le, le_div_iff₀ hp]
      have hbz : b = 3 + z ^ 2 := by rw [hz2]; ring
      have h4 : (z / b + 1 / z) * Real.sinh z = (3 + 2 * z ^ 2) * Real.sinh z / (z * b) := by
        rw [hbz]; field_simp; ring
      rw [h4, div_le_iff₀ (by positivity)]
      calc (3 + 2 * z ^ 2) * Real.sinh z ≤ (3 * z + z ^ 3) * Real.cosh z := h1
        _ = Real.cosh z * (z * b) := by rw [hbz]; ring
    have hr := C65_range hz
    have hlt : z / b < 1 := lt_of_le_of_lt hlow hr.2.1
    have hc : ContinuousOn (fun x : ℝ => (LLGB.langevin (b * x) : ℝ) - x) (Set.Icc (z / b) 1) := by
      intro x hx
      have hx0 : 0 < x := lt_of_lt_of_le (div_pos hz hb0) hx.1
      have := (C65_derivative (x := b * x) (by positivity)).continuousAt
      exact ((ContinuousAt.comp (f := fun x => b * x) this (by fun_prop)).sub continuousAt_id).continuousWithinAt
    have h0 : (0 : ℝ) ∈ Set.Icc ((fun x : ℝ => (LLGB.langevin (b * x) : ℝ) - x) 1) ((fun x : ℝ => (LLGB.langevin (b * x) : ℝ) - x) (z / b)) := by
      constructor
      · have := (C65_range (x := b * 1) (by linarith)).2.1
        simp only; linarith
      · have : b * (z / b) = z := by field_simp
        simp only [this]; linarith
    obtain ⟨x, hx, he⟩ := intermediate_value_Icc' hlt.le hc h0
    have hx0 : 0 < x := lt_of_lt_of_le (div_pos hz hb0) hx.1
    have he : (LLGB.langevin (b * x) : ℝ) = x := by simp only at he; linarith
    exact ⟨x, hx0, he ▸ (C65_range (mul_pos hb0 hx0)).2.1, he⟩

/-- C45, for a positive iteration limit (with limit zero the claim fails: `C45_no_iterations` reports error 0 for any start value): from a positive start value, with positive exchange and temperature and a relaxation factor in `[0, 1]`, a reported
error below the tolerance bounds how far the returned value is from being self-consistent. -/
theorem C45_self_consistent_partial {est temp J0 r tol : ℝ} (hT : 0 < temp) (hJ : 0 < J0) (he : 0 < est) (h0 : 0 ≤ r) (h1 : r ≤ 1)
    (maxIter : Nat) (hm : maxIter ≠ 0) (h : (MFAWeissCurie est temp J0 r tol maxIter).2 < tol) :
    let x := (MFAWeissCurie est temp J0 r tol maxIter).1
    0 < x ∧ x < 1 ∧ |LLGB.langevin (J0 / (Const.boltzmann * temp) * x) - x| ≤
      J0 / (Const.boltzmann * temp) / 3 * (MFAWeissCurie est temp J0 r tol maxIter).2 := by
  have hk : (0 : ℝ) < Const.boltzmann := by simp only [Const.boltzmann, Scalar.ofSci_real_true]; norm_num
  have hbx : ∀ x : ℝ, 1.0 / (Const.boltzmann * temp) * J0 * x = J0 / (Const.boltzmann * temp) * x := by
    intro x; simp only [Scalar.ofSci_real_true]; norm_num; left; field_simp
  have hb : 0 < J0 / (Const.boltzmann * temp) := by positivity
  obtain ⟨k, -, -, h2, h3⟩ := C45_stops est temp J0 r tol maxIter hm
    (fun y => LLGB.langevin (1.0 / (Const.boltzmann * temp) * J0 * y)) (fun _ => rfl)
  rw [← h2, if_pos (by simpa using h)] at h3
  have hpos : ∀ k, 0 < relaxed (fun y : ℝ => LLGB.langevin (1.0 / (Const.boltzmann * temp) * J0 * y)) r est k := by
    intro k
    induction k with
    | zero => exact he
    | succ k ih =>
      have hF := (C65_range (mul_pos hb ih)).1
      simp only [relaxed, hbx, Scalar.ofNat_real, Nat.cast_one] at hF ih ⊢
      rcases h0.eq_or_lt with rfl | h0
      · simpa using ih
      · have := mul_pos h0 hF
        have := mul_nonneg (sub_nonneg.2 h1) ih.le
        linarith
  have hy := hpos k
  set y := relaxed (fun y : ℝ => LLGB.langevin (1.0 / (Const.boltzmann * temp) * J0 * y)) r est k with hyd
  have hx : (MFAWeissCurie est temp J0 r tol maxIter).1 = LLGB.langevin (J0 / (Const.boltzmann * temp) * y) := by
    rw [h3]; show LLGB.langevin _ = _; rw [hbx]
  have he2 : (MFAWeissCurie est temp J0 r tol maxIter).2 = |(MFAWeissCurie est temp J0 r tol maxIter).1 - y| := by
    rw [h2, h3]; rfl
  obtain ⟨r1, r2, -⟩ := C65_range (mul_pos hb hy)
  rw [← hx] at r1 r2
  refine ⟨r1, r2, ?_⟩
  set x := (MFAWeissCurie est temp J0 r tol maxIter).1
  have hlip : ∀ u v : ℝ, 0 < u → 0 < v → |LLGB.langevin u - LLGB.langevin v| ≤ |u - v| / 3 := by
    intro u v hu hv
    rcases lt_trichotomy u v with h | rfl | h
    · have := C65_monotone hu h
      rw [abs_sub_comm, abs_of_pos (by linarith), abs_sub_comm, abs_of_pos (by linarith)]; linarith
    · simp
    · have := C65_monotone hv h
      rw [abs_of_pos (by linarith), abs_of_pos (by linarith)]; linarith
  have h5 := hlip (J0 / (Const.boltzmann * temp) * x) (J0 / (Const.boltzmann * temp) * y) (mul_pos hb r1) (mul_pos hb hy)
  rw [← hx, ← mul_sub, abs_mul, abs_of_pos hb] at h5
  rw [he2]
  linarith

/-- The hypotheses of `C45_self_consistent_partial` hold in the documented case (FePt at 300 K) for a generous tolerance: the first iterate
is accepted. -/
example : (0 : ℝ) < 300 ∧ (0 : ℝ) < 3.051823739e-20 ∧ (MFAWeissCurie (1 : ℝ) 300 3.051823739e-20 0.2 2 1000).2 < 2 := by
  refine ⟨by norm_num, by norm_num, ?_⟩
  have hk : (0 : ℝ) < Const.boltzmann := by simp only [Const.boltzmann, Scalar.ofSci_real_true]; norm_num
  have hb : (0 : ℝ) < 1.0 / (Const.boltzmann * 300) * 3.051823739e-20 * 1 := by
    simp only [Scalar.ofSci_real_true]; norm_num; exact hk
  obtain ⟨h1, h2, -⟩ := C65_range hb
  have h3 : |LLGB.langevin (1.0 / (Const.boltzmann * 300) * 3.051823739e-20 * 1) - (1 : ℝ)| < 2 := by
    rw [abs_lt]; constructor <;> linarith
  unfold MFAWeissCurie
  rw [show (1000 : Nat) = 999 + 1 from rfl, weissLoop]
  rw [Scalar.ltb_real, Scalar.abs_real, if_pos (by simpa using h3)]
  exact h3

end LLGB
