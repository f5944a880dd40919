import Verif.Model.PyFilters
import Verif.Model.Drivers
import Verif.Props.PyProcVsd
import Mathlib.Analysis.SpecialFunctions.Trigonometric.Basic
import Mathlib.Analysis.SpecialFunctions.Trigonometric.Bounds
import Mathlib.Analysis.SpecialFunctions.Exp
import Mathlib.Analysis.Real.Pi.Bounds
import Mathlib.Data.List.GetD

/-!
# C97: filters, C98: the Python drivers
-/

set_option linter.unusedSectionVars false

namespace PyFilters
open Spec

/-- helper: a filter has one response -/
theorem response_unique {b c x y z : List ℝ} (hc : c.getD 0 0 ≠ 0) (hy : FilterResponse b c x y) (hz : FilterResponse b c x z) : y = z := by
  have key : ∀ n < x.length, y.getD n 0 = z.getD n 0 := by
    intro n
    induction n using Nat.strong_induction_on with
    | _ n ih =>
      intro hn
      have h1 := hy.2 n hn
      rw [← hz.2 n hn, Finset.sum_range_succ', Finset.sum_range_succ' (fun k => c.getD k 0 * z.getD (n - k) 0)] at h1
      have h2 : ∑ k ∈ Finset.range n, c.getD (k + 1) 0 * y.getD (n - (k + 1)) 0 = ∑ k ∈ Finset.range n, c.getD (k + 1) 0 * z.getD (n - (k + 1)) 0 := by
        refine Finset.sum_congr rfl fun k hk => ?_
        have := Finset.mem_range.1 hk
        rw [ih (n - (k + 1)) (by omega) (by omega)]
      rw [h2, Nat.sub_zero] at h1
      exact mul_left_cancel₀ hc (add_left_cancel h1)
  refine List.ext_getElem (hy.1.trans hz.1.symm) fun n h1 h2 => ?_
  have := key n (hy.1 ▸ h1)
  rwa [List.getD_eq_getElem _ _ h1, List.getD_eq_getElem _ _ h2] at this

/-- helper: the low-pass filter over the reals -/
theorem lowpass_def (butter : ℕ → ℝ → Except Err (List ℝ × List ℝ)) (data : List ℝ) (cutoff fs : ℝ) (order : ℕ) :
    butterLowpass butter data cutoff fs order =
      if fs = 0 then .error .zeroDivision
      else (butter order (cutoff / (fs / 2))).bind fun c => .ok (Proc.lfilter c.1 c.2 data) := by
  unfold butterLowpass
  simp only [Scalar.ofSci_real_true, Scalar.ofNat_real, Scalar.eqb_real, Nat.cast_zero]
  simp only [decide_eq_true_eq]
  rw [show ((5 : ℕ) : ℝ) / 10 ^ 1 * fs = fs / 2 by push_cast; ring]
  by_cases hfs : fs = 0
  · simp [hfs]
  · rw [if_neg (by simp [hfs]), if_neg hfs]
    rcases butter order (cutoff / (fs / 2)) with e | ⟨b, a⟩ <;> rfl

/-! ### C97 -/

/-- **C97, low-pass.** The result is the response of the filter whose coefficients `butter` returns for the cutoff in units of half the sampling
frequency. -/
theorem C97_lowpass (butter : ℕ → ℝ → Except Err (List ℝ × List ℝ)) (data : List ℝ) (cutoff fs : ℝ) (order : ℕ)
    (hb : ∀ o w b a, butter o w = .ok (b, a) → a.getD 0 0 ≠ 0) (hfs : fs ≠ 0) (y : List ℝ) :
    butterLowpass butter data cutoff fs order = .ok y ↔
      ∃ b a, butter order (cutoff / (fs / 2)) = .ok (b, a) ∧ FilterResponse b a data y := by
  rw [lowpass_def]
  rw [if_neg hfs]
  rcases hc : butter order (cutoff / (fs / 2)) with e | ⟨b, a⟩
  · simp [Except.bind]
  · simp only [Except.bind, Except.ok.injEq, Prod.mk.injEq]
    have hr := Proc.lfilter_response b a data (hb _ _ _ _ hc)
    constructor
    · rintro rfl
      exact ⟨b, a, ⟨rfl, rfl⟩, hr⟩
    · rintro ⟨b', a', ⟨rfl, rfl⟩, h⟩
      exact response_unique (hb _ _ _ _ hc) hr h

/-- **C97, low-pass.** Errors of `butter` are passed on, and a sampling frequency of 0 is a ZeroDivisionError. -/
theorem C97_lowpass_errors (butter : ℕ → ℝ → Except Err (List ℝ × List ℝ)) (data : List ℝ) (cutoff fs : ℝ) (order : ℕ) (e : Err) :
    butterLowpass butter data cutoff fs order = .error e ↔
      (fs = 0 ∧ e = .zeroDivision) ∨ (fs ≠ 0 ∧ butter order (cutoff / (fs / 2)) = .error e) := by
  rw [lowpass_def]
  by_cases hfs : fs = 0
  · subst hfs
    simp [eq_comm]
  · rw [if_neg hfs]
    rcases hc : butter order (cutoff / (fs / 2)) with e' | ⟨b, a⟩ <;> simp [hfs, Except.bind]

/-- **C97, low-pass.** Only the ratio of cutoff and sampling frequency matters. -/
theorem C97_units (butter : ℕ → ℝ → Except Err (List ℝ × List ℝ)) (data : List ℝ) (cutoff fs u : ℝ) (order : ℕ) (hu : u ≠ 0) :
    butterLowpass butter data (u * cutoff) (u * fs) order = butterLowpass butter data cutoff fs order := by
  rw [lowpass_def, lowpass_def, mul_div_assoc u fs 2, mul_div_mul_left _ _ hu]
  simp [hu]

/-- **C97, band-pass, what holds.** With a tuple the result is the response of the filter whose coefficients `butter` returns for the two numbers as they
are. Missing: they are documented as frequencies, which would have to be divided by half the sampling frequency (`C97_band_refuted`); right only for a
sampling frequency of 2. -/
theorem C97_band_partial (butter : ℕ → ℝ → ℝ → Except Err (List ℝ × List ℝ)) (data : List ℝ) (low high fs : ℝ) (rest : List ℝ) (order : ℕ)
    (hb : ∀ o v w b a, butter o v w = .ok (b, a) → a.getD 0 0 ≠ 0) (y : List ℝ) :
    (butterBandpass butter data (.tuple (low :: high :: rest)) fs order = .ok y ↔
      ∃ b a, butter order low high = .ok (b, a) ∧ FilterResponse b a data y) ∧
    (fs = 2 → (butterBandpass butter data (.tuple (low :: high :: rest)) fs order = .ok y ↔
      ∃ b a, butter order (low / (fs / 2)) (high / (fs / 2)) = .ok (b, a) ∧ FilterResponse b a data y)) := by
  have main : butterBandpass butter data (.tuple (low :: high :: rest)) fs order = .ok y ↔
      ∃ b a, butter order low high = .ok (b, a) ∧ FilterResponse b a data y := by
    unfold butterBandpass bandCoefficients
    simp only
    rcases hc : butter order low high with e | ⟨b, a⟩
    · simp
    · simp only [Except.ok.injEq, Prod.mk.injEq]
      have hr := Proc.lfilter_response b a data (hb _ _ _ _ _ hc)
      constructor
      · rintro rfl
        exact ⟨b, a, ⟨rfl, rfl⟩, hr⟩
      · rintro ⟨b', a', ⟨rfl, rfl⟩, h⟩
        exact response_unique (hb _ _ _ _ _ hc) hr h
  refine ⟨main, fun h => ?_⟩
  rw [main, h]
  norm_num

/-- **C97, band-pass.** With a tuple the sampling frequency has no effect at all. -/
theorem C97_ignores_fs {T : Type} [Scalar T] (butter : ℕ → T → T → Except Err (List T × List T)) (data xs : List T) (fs fs' : T) (order : ℕ) :
    butterBandpass butter data (.tuple xs) fs order = butterBandpass butter data (.tuple xs) fs' order := by
  match xs with
  | [] => rfl
  | [_] => rfl
  | _ :: _ :: _ => rfl

/-- **C97, band-pass.** scipy refuses edges of 1 and above, so any band whose upper edge is 1 Hz or more is refused, whatever the sampling frequency. -/
theorem C97_hertz (butter : ℕ → ℝ → ℝ → Except Err (List ℝ × List ℝ)) (hb : ∀ o v w, 1 ≤ w → butter o v w = .error .valueError)
    (data : List ℝ) (low high fs : ℝ) (order : ℕ) (h : 1 ≤ high) :
    butterBandpass butter data (.tuple [low, high]) fs order = .error .valueError := by
  simp [butterBandpass, bandCoefficients, hb _ _ _ h]

/-- **C97, band-pass, refuted**: the edges are not taken relative to the sampling frequency. -/
theorem C97_band_refuted : ∃ (butter : ℕ → ℝ → ℝ → Except Err (List ℝ × List ℝ)) (data : List ℝ) (low high fs : ℝ) (order : ℕ) (y : List ℝ),
    (∀ o v w b a, butter o v w = .ok (b, a) → a.getD 0 0 ≠ 0) ∧
    butterBandpass butter data (.tuple [low, high]) fs order = .ok y ∧
    ¬ ∃ b a, butter order (low / (fs / 2)) (high / (fs / 2)) = .ok (b, a) ∧ FilterResponse b a data y := by
  have hb : ∀ (o : ℕ) (v w : ℝ) (b a : List ℝ), (Except.ok ([v], [1]) : Except Err (List ℝ × List ℝ)) = .ok (b, a) → a.getD 0 0 ≠ 0 := by
    rintro o v w b a h
    simp only [Except.ok.injEq, Prod.mk.injEq] at h
    obtain ⟨-, rfl⟩ := h
    simp
  refine ⟨fun _ v _ => .ok ([v], [1]), [1], 1 / 4, 1 / 2, 1, 5, [1 / 4], hb, ?_, ?_⟩
  · rw [(C97_band_partial _ _ _ _ _ _ _ hb _).1]
    exact ⟨_, _, rfl, by simp, by simp⟩
  · rintro ⟨b, a, h, hr⟩
    simp only [Except.ok.injEq, Prod.mk.injEq] at h
    obtain ⟨rfl, rfl⟩ := h
    have := hr.2 0 (by simp)
    norm_num at this

/-- **C97, band-pass, a float.** Any float but 0 is an UnboundLocalError; 0 stands for the band from 0.09 to 0.1 in the units of the sampling frequency.
Anything that is neither float nor tuple is an UnboundLocalError as well; a tuple of fewer than two is an IndexError. -/
theorem C97_float (butter : ℕ → ℝ → ℝ → Except Err (List ℝ × List ℝ)) (data : List ℝ) (x fs : ℝ) (order : ℕ) :
    (x ≠ 0 → butterBandpass butter data (.float x) fs order = .error .unboundLocal) ∧
    (x = 0 → fs ≠ 0 → butterBandpass butter data (.float x) fs order =
      match butter order (0.09 / (fs / 2)) (0.1 / (fs / 2)) with
      | .error e => .error e
      | .ok (b, a) => .ok (Proc.lfilter b a data)) ∧
    (x = 0 → fs = 0 → butterBandpass butter data (.float x) fs order = .error .zeroDivision) ∧
    butterBandpass butter data .other fs order = .error .unboundLocal ∧
    (∀ xs : List ℝ, xs.length < 2 → butterBandpass butter data (.tuple xs) fs order = .error .indexError) := by
  refine ⟨fun h => ?_, fun h hf => ?_, fun h hf => ?_, rfl, fun xs h => ?_⟩
  · simp [butterBandpass, bandCoefficients, Scalar.eqb_real, h]
  · have hn : (0.5 : ℝ) * fs ≠ 0 := by simp [hf]
    have e : bandCoefficients butter (.float x) fs order = butter order (0.09 / (fs / 2)) (0.1 / (fs / 2)) := by
      simp only [bandCoefficients, bandFromZero, Scalar.eqb_real, h]
      simp only [Scalar.ofSci_real_true, Scalar.ofNat_real, Nat.cast_zero, decide_true, if_true]
      rw [if_neg (by simp [hf])]
      congr 1
      · field_simp; norm_num
      · field_simp; norm_num
    unfold butterBandpass
    rw [e]
    rcases butter order (0.09 / (fs / 2)) (0.1 / (fs / 2)) with e | ⟨b, a⟩ <;> rfl
  · simp [butterBandpass, bandCoefficients, bandFromZero, Scalar.eqb_real, h, hf]
  · match xs, h with
    | [], _ => rfl
    | [_], _ => rfl
    | _ :: _ :: _, h => simp at h

/-- **C97.** Both filters are linear in the data. -/
theorem C97_linear (b c x z : List ℝ) (hc : c.getD 0 0 ≠ 0) (hl : z.length = x.length) (α β : ℝ) :
    Proc.lfilter b c (List.zipWith (fun u v => α * u + β * v) x z) =
      List.zipWith (fun u v => α * u + β * v) (Proc.lfilter b c x) (Proc.lfilter b c z) := by
  have hx := Proc.lfilter_response b c x hc
  have hz := Proc.lfilter_response b c z hc
  refine response_unique hc (Proc.lfilter_response _ _ _ hc) ⟨by simp [hx.1, hz.1], fun n hn => ?_⟩
  have hn' : n < x.length := by simp [hl] at hn; omega
  have g : ∀ u v : List ℝ, u.length = v.length → ∀ k, (List.zipWith (fun u v => α * u + β * v) u v).getD k 0 = α * u.getD k 0 + β * v.getD k 0 := by
    intro u v huv k
    by_cases hk : k < u.length
    · rw [List.getD_eq_getElem _ _ (by simp [huv ▸ hk, hk]), List.getElem_zipWith, List.getD_eq_getElem _ _ hk, List.getD_eq_getElem _ _ (huv ▸ hk)]
    · rw [List.getD_eq_default _ _ (by simp; omega), List.getD_eq_default _ _ (by omega), List.getD_eq_default _ _ (by omega)]
      simp
  simp only [g x z hl.symm, g _ _ (hx.1.trans (hl.symm.trans hz.1.symm)), mul_add, Finset.sum_add_distrib]
  have h1 := hx.2 n hn'
  have h2 := hz.2 n (hl ▸ hn')
  have p : ∀ (γ : ℝ) (u v : List ℝ), ∑ k ∈ Finset.range (n + 1), u.getD k 0 * (γ * v.getD (n - k) 0) =
      γ * ∑ k ∈ Finset.range (n + 1), u.getD k 0 * v.getD (n - k) 0 := by
    intro γ u v
    rw [Finset.mul_sum]
    exact Finset.sum_congr rfl fun k _ => by ring
  rw [p, p, p, p, h1, h2]

/-- **C97.** Neither filter looks ahead: the output for a beginning of the data is the beginning of the output. -/
theorem C97_causal {T : Type} [Scalar T] (b c x z : List T) : (Proc.lfilter b c (x ++ z)).take x.length = Proc.lfilter b c x := by
  unfold Proc.lfilter
  generalize ([] : List T) = xs
  generalize xs = ys at *
  suffices ∀ xs ys, (Proc.lfilterFrom b c xs ys (x ++ z)).take x.length = Proc.lfilterFrom b c xs ys x from this _ _
  induction x with
  | nil => intro xs ys; simp [Proc.lfilterFrom]
  | cons v x ih =>
    intro xs ys
    simp only [List.cons_append, Proc.lfilterFrom, List.length_cons, List.take_succ_cons, ih]

/-- **C97.** A delay of the data by one sample is a delay of the output. -/
theorem C97_delay (b c x : List ℝ) (hc : c.getD 0 0 ≠ 0) : Proc.lfilter b c (0 :: x) = 0 :: Proc.lfilter b c x := by
  have hx := Proc.lfilter_response b c x hc
  refine response_unique hc (Proc.lfilter_response _ _ _ hc) ⟨by simp [hx.1], fun n hn => ?_⟩
  cases n with
  | zero => simp
  | succ n =>
    rw [Finset.sum_range_succ, Finset.sum_range_succ (fun k => b.getD k 0 * _)]
    have g : ∀ (u v : List ℝ), ∑ k ∈ Finset.range (n + 1), u.getD k 0 * ((0 : ℝ) :: v).getD (n + 1 - k) 0 =
        ∑ k ∈ Finset.range (n + 1), u.getD k 0 * v.getD (n - k) 0 := by
      intro u v
      refine Finset.sum_congr rfl fun k hk => ?_
      have := Finset.mem_range.1 hk
      rw [show n + 1 - k = (n - k) + 1 by omega, List.getD_cons_succ]
    rw [g, g, hx.2 n (by simpa using hn)]
    simp

/-- Coefficients that meet the hypotheses: a running mean of two samples, `scipy.signal.lfilter([0.5, 0.5], [1], …)`. -/
example : Proc.lfilter [1 / 2, 1 / 2] [1] [1, 3, (5 : ℝ)] = [1 / 2, 2, 4] := by
  refine response_unique (b := [1 / 2, 1 / 2]) (c := [1]) (x := [1, 3, 5]) (by simp) (Proc.lfilter_response _ _ _ (by simp)) ⟨rfl, fun n hn => ?_⟩
  match n, hn with
  | 0, _ => norm_num
  | 1, _ => norm_num [Finset.sum_range_succ]
  | 2, _ => norm_num [Finset.sum_range_succ]

end PyFilters

namespace PyDrivers

theorem decay_ok (t amp tau : ℝ) (h : tau ≠ 0) : decayDriver t amp tau = .ok (amp * Real.exp (-t / tau)) := by
  simp [decayDriver, Scalar.eqb_real, h]

theorem gaussian_ok (t amp sigma : ℝ) (h : sigma ≠ 0) : gaussianDriver t amp sigma = .ok (amp * Real.exp (-(t / sigma) ^ 2)) := by
  simp only [gaussianDriver, Scalar.eqb_real, Scalar.powi_real, Scalar.exp_real]
  rw [if_neg (by simp [h])]
  congr 3
  field_simp

/-! ### C98 -/

/-- **C98.** The constant driver is constant and the sine driver stays within its amplitude and has the period `2π / freq`: `freq` is an angular
frequency. -/
theorem C98_sine (t amp freq phase : ℝ) :
    constantDriver t amp = amp ∧ |sineDriver t amp freq phase| ≤ |amp| ∧
    (freq ≠ 0 → sineDriver (t + 2 * Real.pi / freq) amp freq phase = sineDriver t amp freq phase) ∧
    sineDriver 0 amp freq phase = amp * Real.sin phase := by
  refine ⟨rfl, ?_, fun h => ?_, ?_⟩
  · simp only [sineDriver, Scalar.sin_real, abs_mul]
    exact mul_le_of_le_one_right (abs_nonneg _) (Real.abs_sin_le_one _)
  · simp only [sineDriver, Scalar.sin_real]
    rw [show freq * (t + 2 * Real.pi / freq) + phase = freq * t + phase + 2 * Real.pi by field_simp; ring, Real.sin_add_two_pi]
  · simp [sineDriver]

/-- **C98, what holds of the two sine drivers.** The Python driver with `2πf` is the C++ driver with `f` and no offset. Missing: the same number as the
frequency of both (`C98_same_refuted`). -/
theorem C98_same_partial (t amp f phase : ℝ) (d : ScalarDriver ℝ) (hd : ScalarDriver.sineDriver 0 amp f phase = .ok d) :
    d.value t = sineDriver t amp (2 * Real.pi * f) phase := by
  unfold ScalarDriver.sineDriver ScalarDriver.mk' at hd
  split at hd
  · simp at hd
  · split at hd
    · simp at hd
    · simp only [Except.ok.injEq] at hd
      subst hd
      simp only [ScalarDriver.value, sineDriver, Scalar.sin_real, Scalar.ofNat_real, Scalar.pi_real]
      rw [show (2 : ℝ) * Real.pi * f * t + phase = 2 * Real.pi * t * f + phase by ring]
      simp

/-- **C98, refuted**: with the same `amplitude, frequency, phase` the two sine drivers differ. -/
theorem C98_same_refuted : ∃ (t amp f phase : ℝ) (d : ScalarDriver ℝ), ScalarDriver.sineDriver 0 amp f phase = .ok d ∧
    d.value t ≠ sineDriver t amp f phase := by
  have h : ∃ d, ScalarDriver.sineDriver (0 : ℝ) 1 1 0 = .ok d := by
    unfold ScalarDriver.sineDriver ScalarDriver.mk'
    rw [if_neg (by simp), if_neg]
    · exact ⟨_, rfl⟩
    · simp only [Scalar.eqb_real, decide_eq_true_eq, not_and]
      intro _ h
      simp at h
      linarith
  obtain ⟨d, hd⟩ := h
  refine ⟨1, 1, 1, 0, d, by simpa using hd, ?_⟩
  rw [C98_same_partial 1 1 1 0 d (by simpa using hd)]
  simp only [sineDriver, Scalar.sin_real, mul_one, add_zero, one_mul, Real.sin_two_pi]
  have := Real.sin_pos_of_pos_of_lt_pi one_pos (by linarith [Real.pi_gt_three])
  exact this.ne

/-- **C98.** The decay starts at the amplitude, loses the same factor in equal times, has fallen to `1/e` after `tau`, and is refused for `tau = 0`. -/
theorem C98_decay (amp tau : ℝ) :
    (tau = 0 → ∀ t, decayDriver t amp tau = .error .zeroDivision) ∧
    (tau ≠ 0 → ∃ f : ℝ → ℝ, (∀ t, decayDriver t amp tau = .ok (f t)) ∧ f 0 = amp ∧ f tau = amp / Real.exp 1 ∧
      (∀ t s, amp * f (t + s) = f t * f s) ∧ (0 < tau → 0 < amp → StrictAnti f) ∧ ∀ t, HasDerivAt f (-(f t) / tau) t) := by
  refine ⟨fun h t => by simp [decayDriver, Scalar.eqb_real, h], fun h => ⟨fun t => amp * Real.exp (-t / tau), fun t => decay_ok t amp tau h, ?_, ?_, ?_, ?_, ?_⟩⟩
  · simp
  · beta_reduce
    rw [neg_div, div_self h, Real.exp_neg]
    rfl
  · intro t s
    beta_reduce
    rw [show -(t + s) / tau = -t / tau + -s / tau by ring, Real.exp_add]
    ring
  · intro h1 h2 t s hts
    beta_reduce
    refine mul_lt_mul_of_pos_left (Real.exp_lt_exp.2 ?_) h2
    exact div_lt_div_of_pos_right (by linarith) h1
  · intro t
    have h1 : HasDerivAt (fun t : ℝ => -t / tau) (-1 / tau) t := (hasDerivAt_id t).neg.div_const tau
    have := (h1.exp.const_mul amp)
    have e : -(amp * Real.exp (-t / tau)) / tau = amp * (Real.exp (-t / tau) * (-1 / tau)) := by ring
    rw [← e] at this
    exact this

/-- **C98.** The Gaussian peaks at 0 with the amplitude, is even, and has fallen to `1/e` at `sigma`. -/
theorem C98_gaussian (amp sigma : ℝ) :
    (sigma = 0 → ∀ t, gaussianDriver t amp sigma = .error .zeroDivision) ∧
    (sigma ≠ 0 → ∃ f : ℝ → ℝ, (∀ t, gaussianDriver t amp sigma = .ok (f t)) ∧ f 0 = amp ∧ f sigma = amp / Real.exp 1 ∧
      (∀ t, f (-t) = f t) ∧ (∀ t, |f t| ≤ |amp|) ∧ (amp ≠ 0 → ∀ t s, |t| < |s| → |f s| < |f t|)) := by
  refine ⟨fun h t => by simp [gaussianDriver, Scalar.eqb_real, Scalar.powi_real, h],
    fun h => ⟨fun t => amp * Real.exp (-(t / sigma) ^ 2), fun t => gaussian_ok t amp sigma h, ?_, ?_, ?_, ?_, ?_⟩⟩
  · simp
  · beta_reduce
    rw [div_self h, one_pow, Real.exp_neg]
    rfl
  · intro t
    beta_reduce
    rw [neg_div, neg_sq]
  · intro t
    beta_reduce
    rw [abs_mul, abs_of_pos (Real.exp_pos _)]
    exact mul_le_of_le_one_right (abs_nonneg _) (Real.exp_le_one_iff.2 (neg_nonpos.2 (sq_nonneg _)))
  · intro ha t s hts
    beta_reduce
    rw [abs_mul, abs_mul, abs_of_pos (Real.exp_pos _), abs_of_pos (Real.exp_pos _)]
    refine mul_lt_mul_of_pos_left (Real.exp_lt_exp.2 (neg_lt_neg ?_)) (abs_pos.2 ha)
    rw [sq_lt_sq, abs_div, abs_div]
    exact div_lt_div_of_pos_right hts (abs_pos.2 h)

/-- **C98, refuted for the Gaussian**: `sigma` is not the standard deviation, at which a Gaussian has fallen to `exp (-1/2)`. -/
theorem C98_sigma_refuted : ∃ amp sigma v : ℝ, gaussianDriver sigma amp sigma = .ok v ∧ v ≠ amp * Real.exp (-1 / 2) := by
  refine ⟨1, 1, _, gaussian_ok 1 1 1 one_ne_zero, ?_⟩
  rw [one_mul, one_mul]
  intro h
  have := Real.exp_injective h
  norm_num at this

end PyDrivers
