import Verif.Model.Colour
import Mathlib.Analysis.SpecialFunctions.Trigonometric.Basic
import Mathlib.Analysis.SpecialFunctions.Complex.Circle
import Mathlib.Analysis.SpecialFunctions.Complex.Log

/-! # C70: the filter of the coloured noise -/

set_option linter.unusedSectionVars false

open Complex

namespace Spec

/-- Causal convolution: entry `n` of the signal `white` filtered with the response `h`. -/
noncomputable def convolution (h white : Nat → ℝ) (n : Nat) : ℝ := ∑ k ∈ Finset.range (n + 1), h k * white (n - k)

/-- Discrete-time Fourier transform of the first `B` samples at `k` half-turns over `B`: frequency `k / (2 B)`. -/
noncomputable def bin (B : Nat) (x : Nat → ℝ) (k : Nat) : ℂ :=
  ∑ j ∈ Finset.range B, (x j : ℂ) * Complex.exp (-(2 * Real.pi * (j * k) / (2 * B) * I))

end Spec

namespace AlphaFilter

/-- helper: `exp (2π i m / N)` -/
noncomputable def E (N : Nat) (m : ℤ) : ℂ := Complex.exp (2 * Real.pi * m / N * I)

theorem E_add (N : Nat) (a b : ℤ) : E N (a + b) = E N a * E N b := by
  rw [E, E, E, ← Complex.exp_add]; congr 1; push_cast; ring

theorem E_zero (N : Nat) : E N 0 = 1 := by simp [E]

theorem E_mul {N : Nat} (hN : N ≠ 0) (a : ℤ) : E N (N * a) = 1 := by
  rw [E, Complex.exp_eq_one_iff]
  refine ⟨a, ?_⟩
  have : (N : ℂ) ≠ 0 := by exact_mod_cast hN
  push_cast; field_simp

theorem E_neg (N : Nat) (a : ℤ) : E N (-a) = (starRingEnd ℂ) (E N a) := by
  rw [E, E, ← Complex.exp_conj]; congr 1
  simp only [map_mul, map_div₀, Complex.conj_I, Complex.conj_ofReal, map_ofNat, map_intCast, map_natCast]
  push_cast; ring

theorem E_eq_one {N : Nat} (hN : N ≠ 0) (a : ℤ) : E N a = 1 ↔ (N : ℤ) ∣ a := by
  constructor
  · intro h
    rw [E, Complex.exp_eq_one_iff] at h
    obtain ⟨n, hn⟩ := h
    have h0 : (N : ℂ) ≠ 0 := by exact_mod_cast hN
    have h1 : (2 * Real.pi * I : ℂ) ≠ 0 := Complex.two_pi_I_ne_zero
    refine ⟨n, ?_⟩
    have h2 : (2 * Real.pi * I : ℂ) * a = (2 * Real.pi * I) * (N * n) := by
      field_simp at hn ⊢
      linear_combination hn
    have := mul_left_cancel₀ h1 h2
    exact_mod_cast this
  · rintro ⟨n, rfl⟩; exact E_mul hN n

theorem E_pow (N : Nat) (a : ℤ) (k : Nat) : E N (k * a) = E N a ^ k := by
  rw [E, E, ← Complex.exp_nat_mul]; congr 1; push_cast; ring

/-- helper: orthogonality -/
theorem E_sum {N : Nat} (hN : N ≠ 0) (a : ℤ) : ∑ k ∈ Finset.range N, E N (k * a) = if (N : ℤ) ∣ a then (N : ℂ) else 0 := by
  simp only [E_pow]
  split
  · rename_i h; rw [(E_eq_one hN a).2 h]; simp
  · rename_i h
    have h1 : E N a ≠ 1 := fun h' => h ((E_eq_one hN a).1 h')
    rw [geom_sum_eq h1, ← E_pow, E_mul hN, sub_self, zero_div]

/-- helper -/
def toC (z : Cplx ℝ) : ℂ := ⟨z.re, z.im⟩

theorem toC_add (a b : Cplx ℝ) : toC (a.add b) = toC a + toC b := by apply Complex.ext <;> simp [toC, Cplx.add]
theorem toC_mul (a b : Cplx ℝ) : toC (a.mul b) = toC a * toC b := by apply Complex.ext <;> simp [toC, Cplx.mul]
theorem toC_half (a : Cplx ℝ) : toC a.half = toC a / 2 := by
  apply Complex.ext <;> simp [toC, Cplx.half]
theorem toC_ofReal (x : ℝ) : toC (.ofReal x) = x := by apply Complex.ext <;> simp [toC, Cplx.ofReal]

theorem toC_sum (n : Nat) (x : Nat → Cplx ℝ) : toC (Cplx.sum n x) = ∑ j ∈ Finset.range n, toC (x j) := by
  induction n with
  | zero => simp [Cplx.sum, toC_ofReal]
  | succ n ih => rw [Cplx.sum, toC_add, ih, Finset.sum_range_succ]

theorem toC_root (x : ℝ) : (⟨Real.cos x, Real.sin x⟩ : ℂ) = Complex.exp (x * I) := by
  apply Complex.ext
  · rw [Complex.exp_ofReal_mul_I_re]
  · rw [Complex.exp_ofReal_mul_I_im]

theorem toC_inverse (n : Nat) (x : Nat → Cplx ℝ) (k : Nat) :
    toC (inverse n x k) = ∑ j ∈ Finset.range n, toC (x j) * E n (j * k) := by
  rw [inverse, toC_sum]
  refine Finset.sum_congr rfl fun j _ => ?_
  rw [toC_mul]; congr 1
  simp only [toC, Scalar.cos_real, Scalar.sin_real, toC_root, E]
  congr 1; simp [nat]

theorem toC_forward (n : Nat) (x : Nat → Cplx ℝ) (k : Nat) :
    toC (forward n x k) = ∑ j ∈ Finset.range n, toC (x j) * E n (-(j * k)) := by
  rw [forward, toC_sum]
  refine Finset.sum_congr rfl fun j _ => ?_
  rw [toC_mul]; congr 1
  rw [E_neg, E]
  simp only [toC, Scalar.cos_real, Scalar.sin_real]
  have h : ∀ y : ℝ, (⟨Real.cos y, -Real.sin y⟩ : ℂ) = (starRingEnd ℂ) (Complex.exp (y * I)) := by
    intro y; rw [← toC_root]; rfl
  rw [h]
  congr 2; simp [nat]

theorem toC_padded (B : Nat) (x : Nat → ℝ) (k : Nat) :
    toC (forward (2 * B) (padded B x) k) = ∑ j ∈ Finset.range B, (x j : ℂ) * E (2 * B) (-(j * k)) := by
  rw [toC_forward, show 2 * B = B + B by ring, Finset.sum_range_add]
  rw [show ∑ j ∈ Finset.range B, toC (padded B x (B + j)) * E (B + B) (-(((B + j : ℕ) : ℤ) * k)) = 0 from ?_, add_zero]
  · refine Finset.sum_congr rfl fun j hj => ?_
    rw [padded, if_pos (Finset.mem_range.1 hj), toC_ofReal]
  · refine Finset.sum_eq_zero fun j _ => ?_
    rw [padded, if_neg (by omega), toC_ofReal]; simp

/-- helper: the product of the transforms -/
noncomputable def Y (B : Nat) (h white : Nat → ℝ) (k : ℤ) : ℂ :=
  (∑ j ∈ Finset.range B, (h j : ℂ) * E (2 * B) (-(j * k))) * ∑ j ∈ Finset.range B, (white j : ℂ) * E (2 * B) (-(j * k))

theorem toC_product (B : Nat) (alpha : ℝ) (white : Nat → ℝ) (k : Nat) :
    toC (product B alpha white k) = Y B (weight alpha) white k := by
  rw [product, toC_mul, toC_padded, toC_padded]; rfl

theorem Y_expand (B : Nat) (h white : Nat → ℝ) (k : ℤ) :
    Y B h white k = ∑ a ∈ Finset.range B, ∑ b ∈ Finset.range B, ((h a * white b : ℝ) : ℂ) * E (2 * B) (-((a + b) * k)) := by
  rw [Y, Finset.sum_mul_sum]
  refine Finset.sum_congr rfl fun a _ => Finset.sum_congr rfl fun b _ => ?_
  rw [show -(((a : ℤ) + b) * k) = -(a * k) + -(b * k) by ring, E_add]; push_cast; ring

/-- helper: the transform of the full spectrum is the convolution -/
theorem full_inverse {B : Nat} (h white : Nat → ℝ) {n : Nat} (hn : n < B) :
    ∑ k ∈ Finset.range (2 * B), Y B h white k * E (2 * B) (k * n) = (2 * B : ℂ) * Spec.convolution h white n := by
  have hB : 2 * B ≠ 0 := by omega
  simp only [Y_expand, Finset.sum_mul]
  rw [Finset.sum_comm]
  have h1 : ∀ a ∈ Finset.range B, ∑ k ∈ Finset.range (2 * B), ∑ b ∈ Finset.range B,
      ((h a * white b : ℝ) : ℂ) * E (2 * B) (-(((a : ℤ) + b) * (k : ℕ))) * E (2 * B) ((k : ℕ) * n) =
      ∑ b ∈ Finset.range B, if a + b = n then (2 * B : ℂ) * ((h a * white b : ℝ) : ℂ) else 0 := by
    intro a ha
    rw [Finset.sum_comm]
    refine Finset.sum_congr rfl fun b hb => ?_
    rw [Finset.mem_range] at ha hb
    have h2 : ∀ k : ℕ, ((h a * white b : ℝ) : ℂ) * E (2 * B) (-(((a : ℤ) + b) * k)) * E (2 * B) (k * n) =
        ((h a * white b : ℝ) : ℂ) * E (2 * B) (k * ((n : ℤ) - a - b)) := by
      intro k; rw [mul_assoc, ← E_add]; congr 2; ring
    simp only [h2]
    rw [← Finset.mul_sum, E_sum hB]
    by_cases hab : a + b = n
    · rw [if_pos hab, if_pos (by rw [show (n : ℤ) - a - b = 0 by omega]; exact dvd_zero _)]; push_cast; ring
    · rw [if_neg hab, if_neg, mul_zero]
      rintro ⟨c, hc⟩
      push_cast at hc
      have : c = 0 := by
        have h3 : -(2 * (B : ℤ)) < 2 * B * c := by omega
        have h4 : 2 * (B : ℤ) * c < 2 * B := by omega
        have hp : (0 : ℤ) < 2 * B := by omega
        have h5 : -1 < c := by
          by_contra hc'; push Not at hc'
          have := mul_le_mul_of_nonneg_left hc' hp.le; linarith
        have h6 : c < 1 := by
          by_contra hc'; push Not at hc'
          have := mul_le_mul_of_nonneg_left hc' hp.le; linarith
        omega
      rw [this, mul_zero] at hc
      omega
  rw [Finset.sum_congr rfl h1]
  rw [Spec.convolution]
  push_cast
  rw [Finset.mul_sum]
  have h3 : ∀ a ∈ Finset.range B, (∑ b ∈ Finset.range B, if a + b = n then (2 * B : ℂ) * ((h a : ℂ) * (white b : ℂ)) else 0) =
      if a < n + 1 then (2 * B : ℂ) * ((h a : ℂ) * (white (n - a) : ℂ)) else 0 := by
    intro a _
    by_cases ha : a < n + 1
    · rw [if_pos ha, Finset.sum_eq_single (n - a)]
      · rw [if_pos (by omega)]
      · intro b _ hb; rw [if_neg (by omega)]
      · intro hb; exfalso; apply hb; rw [Finset.mem_range]; omega
    · rw [if_neg ha]
      refine Finset.sum_eq_zero fun b _ => ?_
      rw [if_neg (by omega)]
  rw [Finset.sum_congr rfl h3, ← Finset.sum_filter]
  refine Finset.sum_congr ?_ fun _ _ => rfl
  ext a; simp; omega

/-- helper: real part of a bin turned to sample `n` -/
noncomputable def R (B : Nat) (h white : Nat → ℝ) (n : Nat) (k : ℤ) : ℝ := (Y B h white k * E (2 * B) (k * n)).re

theorem R_symm {B : Nat} (hB : B ≠ 0) (h white : Nat → ℝ) (n : Nat) (k : ℤ) : R B h white n (2 * B - k) = R B h white n k := by
  have h0 : 2 * B ≠ 0 := by omega
  have e1 : ∀ m : ℤ, E (2 * B) ((2 * B - k) * m) = (starRingEnd ℂ) (E (2 * B) (k * m)) := by
    intro m
    rw [← E_neg, show (2 * (B : ℤ) - k) * m = ((2 * B : ℕ) : ℤ) * m + -(k * m) by push_cast; ring, E_add, E_mul h0, one_mul]
  have e2 : Y B h white (2 * B - k) = (starRingEnd ℂ) (Y B h white k) := by
    simp only [Y, map_mul, map_sum, Complex.conj_ofReal]
    have : ∀ j : ℕ, E (2 * B) (-(j * (2 * B - k))) = (starRingEnd ℂ) (E (2 * B) (-(j * k))) := by
      intro j; rw [show -((j : ℤ) * (2 * B - k)) = (2 * B - k) * (-j) by ring, e1, show k * -(j : ℤ) = -(j * k) by ring]
    simp only [this]
  rw [R, R, e1, e2, ← map_mul, Complex.conj_re]

theorem R_bins {B : Nat} (h white : Nat → ℝ) {n : Nat} (hn : n < B) :
    B * Spec.convolution h white n = R B h white n 0 / 2 + ∑ k ∈ Finset.Ico 1 B, R B h white n k + R B h white n B / 2 := by
  have h1 := congrArg Complex.re (full_inverse h white hn)
  rw [Complex.re_sum] at h1
  rw [show ((2 * B : ℂ) * (Spec.convolution h white n : ℂ)).re = 2 * B * Spec.convolution h white n by
    rw [show ((2 : ℂ) * B * (Spec.convolution h white n : ℂ)) = ((2 * B * Spec.convolution h white n : ℝ) : ℂ) by push_cast; ring]
    exact Complex.ofReal_re _] at h1
  change ∑ k ∈ Finset.range (2 * B), R B h white n (k : ℤ) = _ at h1
  have hB : B ≠ 0 := by omega
  have h2 : ∑ k ∈ Finset.range (2 * B), R B h white n (k : ℤ) =
      R B h white n 0 + ∑ k ∈ Finset.Ico 1 B, R B h white n k + R B h white n B + ∑ k ∈ Finset.Ico (B + 1) (2 * B), R B h white n k := by
    rw [Finset.range_eq_Ico, ← Finset.sum_Ico_consecutive _ (Nat.zero_le 1) (by omega : 1 ≤ 2 * B),
      ← Finset.sum_Ico_consecutive _ (by omega : 1 ≤ B) (by omega : B ≤ 2 * B),
      ← Finset.sum_Ico_consecutive _ (by omega : B ≤ B + 1) (by omega : B + 1 ≤ 2 * B)]
    simp
    ring
  have h3 : ∑ k ∈ Finset.Ico (B + 1) (2 * B), R B h white n k = ∑ k ∈ Finset.Ico 1 B, R B h white n k := by
    refine Finset.sum_bij (fun k _ => 2 * B - k) ?_ ?_ ?_ ?_
    · intro k hk; rw [Finset.mem_Ico] at hk ⊢; omega
    · intro a ha b hb hab; rw [Finset.mem_Ico] at ha hb; omega
    · intro k hk; rw [Finset.mem_Ico] at hk; exact ⟨2 * B - k, by rw [Finset.mem_Ico]; omega, by omega⟩
    · intro k hk
      rw [Finset.mem_Ico] at hk
      rw [← R_symm hB h white n k]; congr 1; omega
  rw [h2, h3] at h1
  linarith

theorem R_fill {B : Nat} (alpha : ℝ) (white : Nat → ℝ) (n : Nat) :
    fill B alpha white n * B * (if B = 0 then 0 else 1) = ∑ k ∈ Finset.range B, R B (weight alpha) white n k *
      ((if k = 0 then 1 / 2 else 1) * if k = B - 1 then 1 / 2 else 1) := by
  rcases Nat.eq_zero_or_pos B with rfl | hB
  · simp
  · have hB' : (B : ℝ) ≠ 0 := by positivity
    rw [if_neg hB.ne', mul_one, fill, show (nat B : ℝ) = B by simp [nat], div_mul_cancel₀ _ hB']
    rw [show (inverse (2 * B) (spectrum B alpha white) n).re = (toC (inverse (2 * B) (spectrum B alpha white) n)).re from rfl,
      toC_inverse, Complex.re_sum, show 2 * B = B + B by ring, Finset.sum_range_add]
    rw [show ∑ j ∈ Finset.range B, (toC (spectrum B alpha white (B + j)) * E (B + B) (((B + j : ℕ) : ℤ) * n)).re = 0 from ?_, add_zero]
    · refine Finset.sum_congr rfl fun k hk => ?_
      rw [Finset.mem_range] at hk
      have e : toC (spectrum B alpha white k) = Y B (weight alpha) white k *
          (((if k = 0 then 1 / 2 else 1) * (if k = B - 1 then 1 / 2 else 1) : ℝ) : ℂ) := by
        simp only [spectrum, if_pos hk]
        split <;> split <;> simp only [toC_half, toC_product] <;> push_cast <;> ring
      rw [e, R, mul_right_comm, Complex.re_mul_ofReal, show B + B = 2 * B by ring]
    · refine Finset.sum_eq_zero fun j _ => ?_
      simp only [spectrum]
      rw [if_neg (by omega), toC_ofReal]; simp

theorem bin_eq (B : Nat) (x : Nat → ℝ) (k : Nat) :
    Spec.bin B x k = ∑ j ∈ Finset.range B, (x j : ℂ) * E (2 * B) (-(j * k)) := by
  refine Finset.sum_congr rfl fun j _ => ?_
  rw [E]; congr 2; push_cast; ring

theorem R_eq (B : Nat) (h white : Nat → ℝ) (n k : Nat) :
    R B h white n k = (Spec.bin B h k * Spec.bin B white k * Complex.exp (2 * Real.pi * (k * n) / (2 * B) * I)).re := by
  rw [R, Y, bin_eq, bin_eq, E]; push_cast; rfl

/-! ## C70 -/

/-- C70: the filter weights are the coefficients of `(1 - z)^(-α/2)`: `(α/2)(α/2+1)...(α/2+n-1)/n!`. -/
theorem C70_weights (alpha : ℝ) (n : Nat) : weight alpha n = ∏ i ∈ Finset.range n, (alpha / 2 + i) / (i + 1) := by
  induction n with
  | zero => simp [weight]
  | succ n ih =>
    rw [weight, ih, Finset.prod_range_succ]
    congr 1
    simp only [nat, Scalar.lit_real, Scalar.ofSci_real_true]
    push_cast
    norm_num
    ring

/-- C70: `α = 0` is the identity filter, `α = 2` the running sum. -/
theorem C70_special (n : Nat) : weight (0 : ℝ) n = (if n = 0 then 1 else 0) ∧ weight (2 : ℝ) n = 1 := by
  constructor
  · rw [C70_weights]
    cases n with
    | zero => simp
    | succ n => rw [Finset.prod_range_succ', if_neg (by omega)]; simp
  · rw [C70_weights]
    refine Finset.prod_eq_one fun i _ => ?_
    have : ((i : ℝ) + 1) ≠ 0 := by positivity
    rw [div_eq_one_iff_eq this]; ring

/-- C70, what the code computes for two samples or more: the causal convolution of the weights with the draws, less half of the last kept
bin and half of the bin at the highest frequency, which is dropped. -/
theorem C70_actual {B : Nat} (hB : 2 ≤ B) (alpha : ℝ) (white : Nat → ℝ) {n : Nat} (hn : n < B) :
    fill B alpha white n = Spec.convolution (weight alpha) white n -
      ((Spec.bin B (weight alpha) (B - 1) * Spec.bin B white (B - 1) * Complex.exp (2 * Real.pi * ((B - 1 : ℕ) * n) / (2 * B) * I)).re +
       (Spec.bin B (weight alpha) B * Spec.bin B white B * Complex.exp (2 * Real.pi * (B * n) / (2 * B) * I)).re) / (2 * B) := by
  have hB0 : (B : ℝ) ≠ 0 := by positivity
  rw [← R_eq, ← R_eq]
  have h1 := R_bins (weight alpha) white hn
  have h2 := R_fill (B := B) alpha white n
  rw [if_neg (by omega), mul_one] at h2
  obtain ⟨C, rfl⟩ : ∃ C, B = C + 2 := ⟨B - 2, by omega⟩
  rw [Finset.sum_range_succ, Finset.sum_range_succ'] at h2
  rw [Finset.sum_Ico_succ_top (by omega), Finset.sum_Ico_eq_sum_range] at h1
  have h3 : ∀ k ∈ Finset.range C, R (C + 2) (weight alpha) white n ((k + 1 : ℕ) : ℤ) *
      ((if k + 1 = 0 then 1 / 2 else 1) * if k + 1 = C + 2 - 1 then 1 / 2 else 1) = R (C + 2) (weight alpha) white n ((1 + k : ℕ) : ℤ) := by
    intro k hk
    rw [Finset.mem_range] at hk
    rw [if_neg (by omega), if_neg (by omega), one_mul, mul_one, Nat.add_comm k 1]
  rw [Finset.sum_congr rfl h3] at h2
  simp only [show C + 1 - 1 = C by omega, show C + 2 - 1 = C + 1 by omega] at h1 h2 ⊢
  rw [if_pos trivial, if_neg (by omega), if_neg (by omega)] at h2
  have : fill (C + 2) alpha white n * ((C + 2 : ℕ) : ℝ) = ((C + 2 : ℕ) : ℝ) * Spec.convolution (weight alpha) white n -
      (R (C + 2) (weight alpha) white n ((C + 1 : ℕ) : ℤ) + R (C + 2) (weight alpha) white n ((C + 2 : ℕ) : ℤ)) / 2 := by
    simp only [Nat.cast_zero] at h1 h2
    linarith
  field_simp
  linarith

/-- C70: the filter is linear in the draws, so the strength of the noise is proportional to the standard deviation of the draws. -/
theorem C70_linear (B : Nat) (alpha a b : ℝ) (x y : Nat → ℝ) (n : Nat) :
    fill B alpha (fun i => a * x i + b * y i) n = a * fill B alpha x n + b * fill B alpha y n := by
  rcases Nat.eq_zero_or_pos B with rfl | hB
  · simp [fill, nat]
  · have hB0 : (B : ℝ) ≠ 0 := by positivity
    have hY : ∀ k : ℤ, R B (weight alpha) (fun i => a * x i + b * y i) n k = a * R B (weight alpha) x n k + b * R B (weight alpha) y n k := by
      intro k
      have : Y B (weight alpha) (fun i => a * x i + b * y i) k = a * Y B (weight alpha) x k + b * Y B (weight alpha) y k := by
        simp only [Y]
        rw [show ∑ j ∈ Finset.range B, ((a * x j + b * y j : ℝ) : ℂ) * E (2 * B) (-(j * k)) =
          a * ∑ j ∈ Finset.range B, (x j : ℂ) * E (2 * B) (-(j * k)) + b * ∑ j ∈ Finset.range B, (y j : ℂ) * E (2 * B) (-(j * k)) by
            rw [Finset.mul_sum, Finset.mul_sum, ← Finset.sum_add_distrib]
            refine Finset.sum_congr rfl fun j _ => ?_
            push_cast; ring]
        ring
      rw [R, R, R, this, add_mul, mul_assoc, mul_assoc, Complex.add_re, Complex.re_ofReal_mul, Complex.re_ofReal_mul]
    have h1 := R_fill (B := B) alpha x n
    have h2 := R_fill (B := B) alpha y n
    have h3 := R_fill (B := B) alpha (fun i => a * x i + b * y i) n
    rw [if_neg hB.ne', mul_one] at h1 h2 h3
    have h4 : fill B alpha (fun i => a * x i + b * y i) n * B = (a * fill B alpha x n + b * fill B alpha y n) * B := by
      rw [h3, add_mul, mul_assoc, mul_assoc, h1, h2, Finset.mul_sum, Finset.mul_sum, ← Finset.sum_add_distrib]
      refine Finset.sum_congr rfl fun k _ => ?_
      rw [hY]; ring
    exact mul_right_cancel₀ hB0 h4

/-- C70 refuted for every buffer size: already white noise (`α = 0`), where the buffer should hold the draws themselves, comes out changed. A single
draw of size one at the start comes out as 1/4 for a buffer of size 1 and as `1 - 1/B` for size `B ≥ 2`. -/
theorem C70_refuted (B : Nat) (hB : 1 ≤ B) :
    let draw : Nat → ℝ := fun i => if i = 0 then 1 else 0
    Spec.convolution (weight 0) draw 0 = 1 ∧ fill B 0 draw 0 = if B = 1 then (1 / 4 : ℝ) else 1 - 1 / (B : ℝ) := by
  intro draw
  have hc : Spec.convolution (weight 0) draw 0 = 1 := by simp [Spec.convolution, draw, weight]
  refine ⟨hc, ?_⟩
  have hs : ∀ (x : Nat → ℝ), (∀ i, x i = if i = 0 then 1 else 0) → ∀ k : Nat, Spec.bin B x k = 1 := by
    intro x hx k
    rw [bin_eq, Finset.sum_eq_single 0]
    · rw [hx]; simp [E_zero]
    · intro b _ hb; rw [hx, if_neg hb]; simp
    · intro h; exfalso; apply h; rw [Finset.mem_range]; omega
  have hd := hs draw fun _ => rfl
  have hw := hs (weight 0) fun i => (C70_special i).1
  rcases Nat.lt_or_ge B 2 with h | h
  · have : B = 1 := by omega
    subst this
    have h2 := R_fill (B := 1) 0 draw 0
    simp only [Finset.sum_range_one, R_eq, hd, hw] at h2
    norm_num at h2
    rw [if_pos rfl, h2]
  · rw [if_neg (by omega), C70_actual h 0 draw (by omega), hc, hd, hw, hd, hw]
    have hB0 : (B : ℝ) ≠ 0 := by positivity
    simp
    field_simp
    norm_num

end AlphaFilter
