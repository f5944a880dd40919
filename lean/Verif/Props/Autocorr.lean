import Verif.Props.PyNoise
import Verif.Props.Colour
import Mathlib.Algebra.Order.Chebyshev

/-!
# C96: autocorrelation
-/

set_option linter.unusedSectionVars false

namespace Spec

/-- Deviation of sample `j` from the mean. -/
noncomputable def deviation (x : List ℝ) (j : ℕ) : ℝ := x.getD j 0 - x.sum / x.length

/-- Sum of the squared deviations. -/
noncomputable def spread (x : List ℝ) : ℝ := ∑ j ∈ Finset.range x.length, deviation x j ^ 2

/-- Autocovariance of the signal continued periodically. -/
noncomputable def circular (x : List ℝ) (s : ℕ) : ℝ := ∑ j ∈ Finset.range x.length, deviation x j * deviation x ((j + s) % x.length)

/-- Autocovariance of the signal itself: products of samples that are `s` apart. -/
noncomputable def linear (x : List ℝ) (s : ℕ) : ℝ := ∑ j ∈ Finset.range (x.length - s), deviation x j * deviation x (j + s)

end Spec

namespace PyNoise
open Spec AlphaFilter

/-- The call as noise.py makes it. -/
noncomputable def autocorr (x : List ℝ) (dT : ℝ) : List ℝ × List ℝ :=
  autocorrelation (fun z : ℂ => ‖z‖) Complex.ofReal Complex.re fft ifft x dT

theorem fft_get (x : List ℂ) (k : ℕ) (hk : k < x.length) :
    (fft x).getD k 0 = ∑ j ∈ Finset.range x.length, x.getD j 0 * E x.length (-(j * k : ℕ)) := by
  simp only [fft, List.getD_eq_getElem?_getD, List.getElem?_map, List.getElem?_range hk, Option.map_some, Option.getD_some]
  refine Finset.sum_congr rfl fun j _ => ?_
  congr 1
  unfold E
  congr 1
  push_cast
  ring

theorem ifft_get (x : List ℂ) (k : ℕ) (hk : k < x.length) :
    (ifft x).getD k 0 = (∑ j ∈ Finset.range x.length, x.getD j 0 * E x.length (j * k : ℕ)) / x.length := by
  simp only [ifft, List.getD_eq_getElem?_getD, List.getElem?_map, List.getElem?_range hk, Option.map_some, Option.getD_some]
  congr 1
  refine Finset.sum_congr rfl fun j _ => ?_
  congr 1
  unfold E
  congr 1
  push_cast
  ring

/-- helper: the squared modulus of a transform -/
theorem power (n : ℕ) (x : ℕ → ℝ) (k : ℕ) :
    ((‖∑ j ∈ Finset.range n, (x j : ℂ) * E n (-(j * k : ℕ))‖ ^ 2 : ℝ) : ℂ) =
      ∑ j ∈ Finset.range n, ∑ l ∈ Finset.range n, (x j : ℂ) * x l * E n (k * (l - j)) := by
  rw [Complex.ofReal_pow, ← Complex.mul_conj', map_sum, Finset.sum_mul_sum]
  refine Finset.sum_congr rfl fun j _ => Finset.sum_congr rfl fun l _ => ?_
  rw [map_mul, Complex.conj_ofReal, ← E_neg, neg_neg, show (k : ℤ) * (l - j) = -(j * k : ℕ) + (l * k : ℕ) by push_cast; ring, E_add]
  ring

/-- helper: the transform of the squared moduli is the circular autocovariance -/
theorem wiener_khinchin {n : ℕ} (hn : n ≠ 0) (x : ℕ → ℝ) (s : ℕ) :
    (∑ k ∈ Finset.range n, ((‖∑ j ∈ Finset.range n, (x j : ℂ) * E n (-(j * k : ℕ))‖ ^ 2 : ℝ) : ℂ) * E n (k * s : ℕ)) / n =
      ((∑ l ∈ Finset.range n, x l * x ((l + s) % n) : ℝ) : ℂ) := by
  have h0 : (n : ℂ) ≠ 0 := by exact_mod_cast hn
  rw [div_eq_iff h0]
  simp only [power, Finset.sum_mul]
  rw [Finset.sum_comm]
  simp only [Finset.sum_comm (s := Finset.range n) (t := Finset.range n) (f := fun k l => _ * _ * E n (k * (l - _)) * _)]
  have key : ∀ j ∈ Finset.range n, ∀ l ∈ Finset.range n,
      ∑ k ∈ Finset.range n, (x j : ℂ) * x l * E n (k * (l - j)) * E n (k * s : ℕ) = if j = (l + s) % n then (x j : ℂ) * x l * n else 0 := by
    intro j hj l hl
    have h1 : ∀ k : ℕ, (x j : ℂ) * x l * E n (k * (l - j)) * E n (k * s : ℕ) = x j * x l * E n (k * (l + s - j)) := by
      intro k
      rw [mul_assoc, ← E_add]
      congr 2
      push_cast
      ring
    simp only [h1]
    rw [← Finset.mul_sum, E_sum hn]
    have h2 : (n : ℤ) ∣ (l + s - j) ↔ j = (l + s) % n := by
      have hj' := Finset.mem_range.1 hj
      rw [show ((l : ℤ) + s - j) = ((l + s : ℕ) : ℤ) - (j : ℤ) by push_cast; ring, ← Int.modEq_iff_dvd, Int.natCast_modEq_iff]
      unfold Nat.ModEq
      rw [Nat.mod_eq_of_lt hj']
    by_cases h3 : j = (l + s) % n
    · rw [if_pos h3, if_pos (h2.2 h3)]
    · rw [if_neg h3, if_neg (fun h => h3 (h2.1 h)), mul_zero]
  calc _ = ∑ j ∈ Finset.range n, ∑ l ∈ Finset.range n, ∑ k ∈ Finset.range n, (x j : ℂ) * x l * E n (k * (l - j)) * E n (k * s : ℕ) := by
        refine Finset.sum_congr rfl fun j _ => ?_
        rw [Finset.sum_comm]
    _ = ∑ j ∈ Finset.range n, ∑ l ∈ Finset.range n, if j = (l + s) % n then (x j : ℂ) * x l * n else 0 :=
        Finset.sum_congr rfl fun j hj => Finset.sum_congr rfl fun l hl => key j hj l hl
    _ = ∑ l ∈ Finset.range n, (x l : ℂ) * x ((l + s) % n) * n := by
        rw [Finset.sum_comm]
        refine Finset.sum_congr rfl fun l _ => ?_
        rw [Finset.sum_ite_eq' (Finset.range n) ((l + s) % n), if_pos (Finset.mem_range.2 (Nat.mod_lt _ (Nat.pos_of_ne_zero hn)))]
        ring
    _ = _ := by
        push_cast
        rw [Finset.sum_mul]

theorem mean_real (x : List ℝ) : total x / Scalar.lit (x.length : ℚ) = x.sum / x.length := by
  rw [total_real, Scalar.lit_real]
  norm_cast

theorem spread_eq (x : List ℝ) (m : ℝ) (hm : m = x.sum / x.length) :
    total ((x.map (· - m)).map fun v => Scalar.powi v 2) = spread x := by
  rw [total_real, spread, ← Fin.sum_univ_eq_sum_range (fun j => deviation x j ^ 2), List.map_map, ← List.sum_ofFn]
  congr 1
  apply List.ext_getElem (by simp)
  intro k h1 h2
  simp [deviation, hm, Scalar.powi_real]

/-! ### C96 -/

/-- **C96.** The values are the autocovariances of the periodically continued signal divided by the spread, one for each of the first `n / 2` lags
`k dT`. -/
theorem C96_circular (x : List ℝ) (dT : ℝ) :
    (autocorr x dT).1.length = x.length / 2 ∧ (autocorr x dT).2.length = x.length / 2 ∧
    ∀ s < x.length / 2, (autocorr x dT).1.getD s 0 = s * dT ∧ (autocorr x dT).2.getD s 0 = circular x s / spread x := by
  have hm := mean_real x
  set m := total x / Scalar.lit (x.length : ℚ) with hmd
  have len : ((fft ((x.map (· - m)).map Complex.ofReal)).map fun z : ℂ => Scalar.powi ‖z‖ 2).length = x.length := by simp [fft]
  have hl : (autocorr x dT).2.length = x.length / 2 := by
    simp [autocorr, autocorrelation, fft, ifft]
    omega
  have hl1 : (autocorr x dT).1 = (List.range (x.length / 2)).map fun k : ℕ => Scalar.lit (k : ℚ) * dT := by
    rw [← hl]
    rfl
  refine ⟨by rw [hl1]; simp, hl, fun s hs => ⟨?_, ?_⟩⟩
  · rw [hl1]
    simp [hs, Scalar.lit_real]
  · have hs' : s < x.length := by omega
    have hn : x.length ≠ 0 := by omega
    have e : (autocorr x dT).2.getD s 0 =
        ((ifft (((fft ((x.map (· - m)).map Complex.ofReal)).map fun z : ℂ => Scalar.powi ‖z‖ 2).map Complex.ofReal)).getD s 0).re /
          total ((x.map (· - m)).map fun v => Scalar.powi v 2) := by
      have hsl : s < (ifft (((fft ((x.map (· - m)).map Complex.ofReal)).map fun z : ℂ => Scalar.powi ‖z‖ 2).map Complex.ofReal)).length := by
        simpa [ifft, fft] using hs'
      rw [List.getD_eq_getElem _ _ (by rw [hl]; exact hs), List.getD_eq_getElem _ _ hsl]
      simp only [autocorr, autocorrelation, List.getElem_map, List.getElem_take]
      rfl
    rw [e, spread_eq x m hm, ifft_get _ _ (by simpa [fft] using hs')]
    congr 1
    have hlen : (((fft ((x.map (· - m)).map Complex.ofReal)).map fun z : ℂ => Scalar.powi ‖z‖ 2).map Complex.ofReal).length = x.length := by simp [fft]
    rw [hlen]
    have hget : ∀ k ∈ Finset.range x.length,
        (((fft ((x.map (· - m)).map Complex.ofReal)).map fun z : ℂ => Scalar.powi ‖z‖ 2).map Complex.ofReal).getD k 0 * E x.length (k * s : ℕ) =
          ((‖∑ j ∈ Finset.range x.length, (deviation x j : ℂ) * E x.length (-(j * k : ℕ))‖ ^ 2 : ℝ) : ℂ) * E x.length (k * s : ℕ) := by
      intro k hk
      have hk' := Finset.mem_range.1 hk
      have hkf : k < (fft ((x.map (· - m)).map Complex.ofReal)).length := by simpa [fft] using hk'
      congr 1
      have hf := fft_get ((x.map (· - m)).map Complex.ofReal) k (by simpa using hk')
      rw [List.getD_eq_getElem _ _ hkf] at hf
      rw [List.getD_eq_getElem _ _ (by rw [hlen]; exact hk')]
      simp only [List.getElem_map, Scalar.powi_real]
      rw [hf]
      simp only [List.length_map]
      congr 3
      refine Finset.sum_congr rfl fun j hj => ?_
      have hj' := Finset.mem_range.1 hj
      rw [List.getD_eq_getElem _ _ (by simpa using hj')]
      simp [deviation, hj', hm]
    rw [Finset.sum_congr rfl hget, wiener_khinchin hn (deviation x) s, Complex.ofReal_re]
    rfl

theorem spread_nonneg (x : List ℝ) : 0 ≤ spread x := Finset.sum_nonneg fun _ _ => sq_nonneg _

theorem spread_zero (x : List ℝ) : spread x = 0 ↔ ∃ c, ∀ v ∈ x, v = c := by
  unfold spread
  rw [Finset.sum_eq_zero_iff_of_nonneg fun _ _ => sq_nonneg _]
  constructor
  · intro h
    refine ⟨x.sum / x.length, fun v hv => ?_⟩
    obtain ⟨j, hj, rfl⟩ := List.getElem_of_mem hv
    have := h j (Finset.mem_range.2 hj)
    have := pow_eq_zero_iff (two_ne_zero) |>.1 this
    simp only [deviation, List.getD_eq_getElem _ _ hj] at this
    linarith
  · rintro ⟨c, hc⟩ j hj
    have hj' := Finset.mem_range.1 hj
    have hx : x = List.replicate x.length c := List.eq_replicate_iff.2 ⟨rfl, hc⟩
    have hn : (x.length : ℝ) ≠ 0 := by
      have : x.length ≠ 0 := by omega
      exact_mod_cast this
    have hs : x.sum = x.length * c := by
      conv_lhs => rw [hx]
      simp
    simp only [deviation, List.getD_eq_getElem _ _ hj', hc _ (List.getElem_mem hj'), hs]
    rw [mul_div_cancel_left₀ _ hn]
    simp

/-- **C96.** The first value is 1 unless the signal is constant (numpy divides 0 by 0 then). -/
theorem C96_unit (x : List ℝ) (dT : ℝ) (hn : 2 ≤ x.length) (hx : ¬ ∃ c, ∀ v ∈ x, v = c) : (autocorr x dT).2.getD 0 0 = 1 := by
  rw [((C96_circular x dT).2.2 0 (by omega)).2]
  have h : circular x 0 = spread x := by
    unfold circular spread
    refine Finset.sum_congr rfl fun j hj => ?_
    rw [Nat.add_zero, Nat.mod_eq_of_lt (Finset.mem_range.1 hj), sq]
  rw [h, div_self]
  exact fun h0 => hx ((spread_zero x).1 h0)

/-- helper: shifting permutes the samples -/
theorem sum_shift (n s : ℕ) (f : ℕ → ℝ) : ∑ j ∈ Finset.range n, f ((j + s) % n) = ∑ j ∈ Finset.range n, f j := by
  rcases Nat.eq_zero_or_pos n with rfl | hn
  · simp
  · refine Finset.sum_bij (fun j _ => (j + s) % n) (fun j _ => Finset.mem_range.2 (Nat.mod_lt _ hn)) ?_ ?_ (fun _ _ => rfl)
    · intro a ha b hb hab
      have : a + s ≡ b + s [MOD n] := hab
      have := Nat.ModEq.add_right_cancel' s this
      exact Nat.ModEq.eq_of_lt_of_lt this (Finset.mem_range.1 ha) (Finset.mem_range.1 hb)
    · intro b hb
      refine ⟨(b + (n - s % n)) % n, Finset.mem_range.2 (Nat.mod_lt _ hn), ?_⟩
      have hb' := Finset.mem_range.1 hb
      have h1 : s % n < n := Nat.mod_lt _ hn
      have : (b + (n - s % n)) + s = b + n * (1 + s / n) := by
        have := Nat.mod_add_div s n
        rw [Nat.mul_add, Nat.mul_one]
        omega
      change ((b + (n - s % n)) % n + s) % n = b
      rw [Nat.mod_add_mod, this, Nat.add_mul_mod_self_left, Nat.mod_eq_of_lt hb']

/-- **C96.** No value exceeds 1 in modulus. -/
theorem C96_bound (x : List ℝ) (dT : ℝ) : ∀ v ∈ (autocorr x dT).2, |v| ≤ 1 := by
  intro v hv
  obtain ⟨s, hs, rfl⟩ := List.getElem_of_mem hv
  have hl := (C96_circular x dT).2.1
  have := ((C96_circular x dT).2.2 s (by omega)).2
  rw [List.getD_eq_getElem _ _ hs] at this
  rw [this, abs_div, abs_of_nonneg (spread_nonneg x)]
  refine div_le_one_of_le₀ ?_ (spread_nonneg x)
  have cs := Finset.sum_mul_sq_le_sq_mul_sq (Finset.range x.length) (deviation x) fun j => deviation x ((j + s) % x.length)
  rw [sum_shift x.length s fun j => deviation x j ^ 2] at cs
  have : circular x s ^ 2 ≤ spread x ^ 2 := by
    rw [sq (spread x)]
    exact cs
  exact abs_le_of_sq_le_sq this (spread_nonneg x)

/-- **C96.** Gain and offset of the signal do not matter. -/
theorem C96_affine (x : List ℝ) (dT a b : ℝ) (ha : a ≠ 0) : autocorr (x.map fun v => a * v + b) dT = autocorr x dT := by
  have hdev : ∀ j < x.length, deviation (x.map fun v => a * v + b) j = a * deviation x j := by
    intro j hj
    have hn : (x.length : ℝ) ≠ 0 := by
      have : x.length ≠ 0 := by omega
      exact_mod_cast this
    have hs : (x.map fun v => a * v + b).sum = a * x.sum + x.length * b := by
      clear hj hn
      induction x with
      | nil => simp
      | cons v x ih =>
        simp only [List.map_cons, List.sum_cons, ih, List.length_cons]
        push_cast
        ring
    unfold deviation
    rw [hs, List.length_map, List.getD_eq_getElem _ _ (by simpa using hj), List.getD_eq_getElem _ _ hj, List.getElem_map]
    field_simp
    ring
  have hsp : spread (x.map fun v => a * v + b) = a ^ 2 * spread x := by
    unfold spread
    rw [List.length_map, Finset.mul_sum]
    refine Finset.sum_congr rfl fun j hj => ?_
    rw [hdev j (Finset.mem_range.1 hj)]
    ring
  have hci : ∀ s, circular (x.map fun v => a * v + b) s = a ^ 2 * circular x s := by
    intro s
    unfold circular
    rw [List.length_map, Finset.mul_sum]
    refine Finset.sum_congr rfl fun j hj => ?_
    have hj' := Finset.mem_range.1 hj
    rw [hdev j hj', hdev _ (Nat.mod_lt _ (by omega))]
    ring
  obtain ⟨h1, h2, h3⟩ := C96_circular (x.map fun v => a * v + b) dT
  obtain ⟨g1, g2, g3⟩ := C96_circular x dT
  rw [List.length_map] at h1 h2 h3
  refine Prod.ext (List.ext_getElem (by omega) fun s s1 s2 => ?_) (List.ext_getElem (by omega) fun s s1 s2 => ?_)
  · rw [← List.getD_eq_getElem _ 0, ← List.getD_eq_getElem _ 0, (h3 s (by omega)).1, (g3 s (by omega)).1]
  · rw [← List.getD_eq_getElem _ 0, ← List.getD_eq_getElem _ 0, (h3 s (by omega)).2, (g3 s (by omega)).2, hsp, hci,
      mul_div_mul_left _ _ (pow_ne_zero 2 ha)]

/-- helper: `1, 0, 0, 0` -/
theorem pulse_dev : ∀ j, deviation [1, 0, 0, 0] j = [3 / 4, -1 / 4, -1 / 4, -1 / 4].getD j (-1 / 4) := by
  intro j
  match j with
  | 0 => simp [deviation]; norm_num
  | 1 => simp [deviation]; norm_num
  | 2 => simp [deviation]; norm_num
  | 3 => simp [deviation]; norm_num
  | j + 4 => simp [deviation]; norm_num

/-- **C96, refuted for the signal itself**: the transform is not padded, so the end of the signal is multiplied with its beginning. For the pulse
`1, 0, 0, 0` the value at lag 1 is -1/3 where the signal has -1/12. -/
theorem C96_linear_refuted : ∃ (x : List ℝ) (dT : ℝ) (s : ℕ), s < x.length / 2 ∧ spread x ≠ 0 ∧
    (autocorr x dT).2.getD s 0 ≠ linear x s / spread x := by
  have hs : spread [1, 0, 0, 0] = 3 / 4 := by
    simp [spread, Finset.sum_range_succ, pulse_dev]; norm_num
  refine ⟨[1, 0, 0, 0], 1, 1, by simp, by rw [hs]; norm_num, ?_⟩
  rw [((C96_circular [1, 0, 0, 0] 1).2.2 1 (by simp)).2, hs]
  simp [circular, linear, Finset.sum_range_succ, pulse_dev]

/-- **C96, what holds for the signal itself.** The value at lag `s` is the autocovariance of the signal plus that of its last `s` with its first `s`
samples. Missing: the second term should not be there (`C96_linear_refuted`). -/
theorem C96_linear_partial (x : List ℝ) (dT : ℝ) (s : ℕ) (hs : s < x.length / 2) :
    (autocorr x dT).2.getD s 0 =
      (linear x s + ∑ j ∈ Finset.range s, deviation x (x.length - s + j) * deviation x j) / spread x := by
  rw [((C96_circular x dT).2.2 s hs).2]
  congr 1
  unfold circular linear
  conv_lhs => rw [show x.length = (x.length - s) + s by omega, Finset.sum_range_add]
  rw [show x.length - s + s = x.length by omega]
  congr 1
  · refine Finset.sum_congr rfl fun j hj => ?_
    have := Finset.mem_range.1 hj
    rw [Nat.mod_eq_of_lt (by omega)]
  · refine Finset.sum_congr rfl fun j hj => ?_
    have := Finset.mem_range.1 hj
    rw [show x.length - s + j + s = j + x.length by omega, Nat.add_mod_right, Nat.mod_eq_of_lt (by omega)]

/-- A signal that meets the hypotheses of `C96_unit`. -/
example : (2 ≤ [1, 0, 0, 0].length) ∧ ¬ ∃ c : ℝ, ∀ v ∈ [1, 0, 0, 0], v = c := by
  refine ⟨by simp, ?_⟩
  rintro ⟨c, h⟩
  have h1 := h 1 (by simp)
  have h2 := h 0 (by simp)
  linarith

end PyNoise
