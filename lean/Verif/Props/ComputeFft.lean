import Verif.Props.Compute
import Mathlib.Analysis.SpecialFunctions.Complex.Circle

set_option linter.unusedSectionVars false

/-!
# C92, C93: the spectra of `compute.hpp`
-/

namespace Compute
open Spec AlphaFilter
variable {T : Type} [Scalar T]

/-! ### Columns of the result -/

theorem col_assign (L : Log T) (k key : String) (v : List T) : (assign L k v).col key = if k = key then v else L.col key := by
  induction L with
  | nil => simp only [assign, Log.col]
  | cons p L ih =>
    obtain ⟨a, w⟩ := p
    unfold assign
    by_cases h : a = k
    · subst h
      simp only [if_true, Log.col]
      split <;> rfl
    · rw [if_neg h]
      simp only [Log.col, ih]
      by_cases h1 : a = key
      · subst h1; simp [Ne.symm h]
      · simp [h1]

theorem keys_assign (L : Log T) (k key : String) (v : List T) : key ∈ (assign L k v).keys ↔ key = k ∨ key ∈ L.keys := by
  induction L with
  | nil => simp [assign, Log.keys]
  | cons p L ih =>
    obtain ⟨a, w⟩ := p
    unfold assign
    by_cases h : a = k
    · subst h; simp [Log.keys]
    · rw [if_neg h]
      have : key ∈ Log.keys ((a, w) :: assign L k v) ↔ key = a ∨ key ∈ (assign L k v).keys := by simp [Log.keys]
      rw [this, ih]
      simp [Log.keys]
      tauto

/-- The column is long enough for the call: as long as the time column. -/
def SameLength (log : Log T) (tag : String) : Prop := log.has tag = true ∧ (log.col tag).length = (log.col "time").length

/-- The two columns for a tag. -/
def ampCol (dft : List T → ℕ → T × T) (x : List T) : List T :=
  (dft x 0).1 :: (List.range' 1 ((x.length + 1) / 2 - 2)).map fun i => amplitude (norm x.length) (dft x i)
def phaseCol (dft : List T → ℕ → T × T) (x : List T) : List T :=
  0 :: (List.range' 1 ((x.length + 1) / 2 - 2)).map fun i => phase (norm x.length) (dft x i)

theorem suffix_ne (a b : String) : a ++ "_amplitude" ≠ b ++ "_phase" := by
  intro h
  have := congrArg (fun s : String => s.toList.reverse[1]?) h
  simp at this

theorem freq_ne (a : String) : "frequencies" ≠ a ++ "_amplitude" ∧ "frequencies" ≠ a ++ "_phase" := by
  constructor <;>
  · intro h
    have := congrArg (fun s : String => s.toList.getLast?) h
    simp at this

theorem append_inj (a b c : String) (h : a ++ c = b ++ c) : a = b := by
  have := congrArg String.toList h
  simp only [String.toList_append, List.append_cancel_right_eq] at this
  exact String.toList_injective this

theorem tagLoop_ok (dft : List T → ℕ → T × T) (log : Log T) (s : ℕ) (hs : s < (log.col "time").length) (tags : List String)
    (h : ∀ tag ∈ tags, SameLength log tag) (res : Log T) :
    ∃ out, tagLoop dft log s ((log.col "time").length - s) tags res = .ok out ∧
      (∀ tag ∈ tags, out.col (tag ++ "_amplitude") = ampCol dft ((log.col tag).drop s) ∧
        out.col (tag ++ "_phase") = phaseCol dft ((log.col tag).drop s)) ∧
      (∀ key, (∀ tag ∈ tags, key ≠ tag ++ "_amplitude" ∧ key ≠ tag ++ "_phase") → out.col key = res.col key) ∧
      (∀ key, key ∈ out.keys ↔ key ∈ res.keys ∨ ∃ tag ∈ tags, key = tag ++ "_amplitude" ∨ key = tag ++ "_phase") := by
  induction tags generalizing res with
  | nil => exact ⟨res, rfl, by simp, by simp, by simp⟩
  | cons tag tags ih =>
    obtain ⟨h1, h2⟩ := h tag (by simp)
    unfold tagLoop
    rw [h1, if_neg (by simp), if_neg (by omega), if_neg (by simp; omega)]
    have hl : (log.col "time").length - s = ((log.col tag).drop s).length := by simp [h2]
    obtain ⟨out, e1, e2, e3, e4⟩ := ih (fun t ht => h t (by simp [ht]))
      (assign (assign res (tag ++ "_amplitude") (ampCol dft ((log.col tag).drop s))) (tag ++ "_phase") (phaseCol dft ((log.col tag).drop s)))
    refine ⟨out, ?_, ?_, ?_, ?_⟩
    · rw [← e1, hl]
      rfl
    · intro t ht
      by_cases hin : t ∈ tags
      · exact e2 t hin
      · obtain rfl : t = tag := by simpa [hin] using ht
        rw [e3, e3, col_assign, col_assign, col_assign, if_neg (suffix_ne _ _).symm, if_pos rfl, if_pos rfl]
        · exact ⟨rfl, rfl⟩
        · exact fun q hq => ⟨fun he => suffix_ne _ _ he.symm, fun he => hin (append_inj _ _ _ he ▸ hq)⟩
        · exact fun q hq => ⟨fun he => hin (append_inj _ _ _ he ▸ hq), fun he => suffix_ne _ _ he⟩
    · intro key hkey
      rw [e3 key fun q hq => hkey q (by simp [hq]), col_assign, col_assign, if_neg (hkey tag (by simp)).2.symm,
        if_neg (hkey tag (by simp)).1.symm]
    · intro key
      rw [e4, keys_assign, keys_assign]
      simp only [List.mem_cons, exists_eq_or_imp]
      generalize (∃ t ∈ tags, key = t ++ "_amplitude" ∨ key = t ++ "_phase") = P
      tauto

/-! ### Bins -/

theorem dft_transform (l : List ℝ) (s k : ℕ) :
    dftReal (l.drop s) k = ((transform (l.length - s) (fun i => l.getD (s + i) 0) k).re,
      (transform (l.length - s) (fun i => l.getD (s + i) 0) k).im) := by
  have hx : ∀ i, (l.drop s).getD i 0 = l.getD (s + i) 0 := fun i => by simp [List.getD_eq_getElem?_getD]
  have he : ∀ i : ℕ, Complex.exp (-(2 * Real.pi * Complex.I * (i * k : ℕ) / ((l.length - s : ℕ) : ℕ))) =
      Complex.exp ((-(2 * Real.pi * (i * k : ℕ) / (l.length - s : ℕ)) : ℝ) * Complex.I) := by
    intro i
    congr 1
    push_cast
    ring
  unfold dftReal transform
  simp only [List.length_drop, hx, he]
  rw [Complex.re_sum, Complex.im_sum]
  simp only [Complex.re_ofReal_mul, Complex.im_ofReal_mul, Complex.exp_ofReal_mul_I_re, Complex.exp_ofReal_mul_I_im, Real.cos_neg, Real.sin_neg,
    mul_neg, Finset.sum_neg_distrib]

theorem amplitude_eq {m : ℕ} (hm : m ≠ 0) (z : ℂ) : amplitude (norm m : ℝ) (z.re, z.im) = 2 / m * ‖z‖ := by
  have : (0 : ℝ) < m := by positivity
  unfold amplitude norm
  simp only [Scalar.sqrt_real, Scalar.powi_real, Scalar.lit_real, Scalar.ofNat_real]
  rw [Complex.norm_eq_sqrt_sq_add_sq]
  rw [show ((z.re / (((m : ℚ) : ℝ) / ((2 : ℕ) : ℝ))) ^ 2 + (z.im / (((m : ℚ) : ℝ) / ((2 : ℕ) : ℝ))) ^ 2) = (2 / m) ^ 2 * (z.re ^ 2 + z.im ^ 2) by
    push_cast; field_simp]
  rw [Real.sqrt_mul (by positivity), Real.sqrt_sq (by positivity)]

theorem phase_eq {m : ℕ} (hm : m ≠ 0) (z : ℂ) : phase (norm m : ℝ) (z.re, z.im) = Complex.arg z := by
  have h : (0 : ℝ) < 2 / m := by positivity
  unfold phase norm
  simp only [Scalar.atan2_real, Scalar.lit_real, Scalar.ofNat_real]
  rw [← Complex.arg_real_mul z h]
  congr 1
  apply Complex.ext
  · simp only [Complex.re_ofReal_mul]; push_cast; field_simp
  · simp only [Complex.im_ofReal_mul]; push_cast; field_simp

theorem maxIt_eq (m : ℕ) : maxIt m = (m - 1) / 2 := by
  unfold maxIt
  split <;> omega

theorem freqs_eq (m : ℕ) (dt : ℝ) : frequencySteps m dt = (List.range ((m - 1) / 2)).map fun k : ℕ => (k : ℝ) / (m * dt) := by
  unfold frequencySteps
  rw [maxIt_eq]
  refine List.map_congr_left fun k _ => ?_
  simp only [Scalar.lit_real]
  push_cast
  rw [mul_comm dt]

/-- **C92.** The spectra of a log whose columns are as long as the time column, when the last time is after `start` and row `s` is the first not
before it. The log is unchanged; the result has the frequencies and two columns per tag. With `m` kept rows there are `(m-1)/2` frequencies
`k/(m dt)`; entry `k ≥ 1` of a tag is `2/m` times the modulus and the argument of bin `k`. Entry 0 is the sum of the samples, phase 0. -/
theorem C92_spectrum_partial (log : Log ℝ) (ids : List String) (ht : log.has "time" = true)
    (hids : ∀ tag ∈ ids, log.has tag = true ∧ (log.col tag).length = (log.col "time").length) (start dt : ℝ) {s n : ℕ}
    (hn : n = (log.col "time").length) (hs : FirstRow (fun i => (log.col "time").getD i 0) n start s)
    (hlast : start < (log.col "time").getD (n - 1) 0) :
    ∃ out, spectralFFT dftReal log ids start dt = .ok out log ∧
      (∀ key, key ∈ out.keys ↔ key = "frequencies" ∨ ∃ tag ∈ ids, key = tag ++ "_amplitude" ∨ key = tag ++ "_phase") ∧
      out.col "frequencies" = (List.range ((n - s - 1) / 2)).map (fun k : ℕ => (k : ℝ) / ((n - s : ℕ) * dt)) ∧
      ∀ tag ∈ ids,
        (out.col (tag ++ "_amplitude")).length = max 1 ((n - s - 1) / 2) ∧ (out.col (tag ++ "_phase")).length = max 1 ((n - s - 1) / 2) ∧
        (out.col (tag ++ "_amplitude")).getD 0 0 = ∑ i ∈ Finset.range (n - s), (log.col tag).getD (s + i) 0 ∧
        (out.col (tag ++ "_phase")).getD 0 0 = 0 ∧
        ∀ k, 0 < k → k < (n - s - 1) / 2 →
          (out.col (tag ++ "_amplitude")).getD k 0 =
            2 / (n - s : ℕ) * ‖transform (n - s) (fun i => (log.col tag).getD (s + i) 0) k‖ ∧
          (out.col (tag ++ "_phase")).getD k 0 = Complex.arg (transform (n - s) (fun i => (log.col tag).getD (s + i) 0) k) := by
  subst hn
  have hlt := hs.1
  obtain ⟨out, e1, e2, e3, e4⟩ := tagLoop_ok dftReal log s hlt ids hids
    [("frequencies", frequencySteps ((log.col "time").length - s) dt)]
  refine ⟨out, ?_, ?_, ?_, ?_⟩
  · unfold spectralFFT
    simp only [touch_has ht]
    rw [List.getLast?_eq_getElem?, List.getElem?_eq_getElem (by omega)]
    have : ¬ (Scalar.leb (log.col "time")[(log.col "time").length - 1] start = true) := by
      simpa [show (log.col "time").length - 1 < (log.col "time").length by omega] using hlast
    simp only [if_neg this, not_empty ht, Bool.false_eq_true, if_false, threshold_first hs, e1]
    rfl
  · intro key
    rw [e4]
    simp [Log.keys]
  · rw [e3 _ fun t _ => freq_ne t, ← freqs_eq]
    simp [Log.col]
  · intro tag htag
    obtain ⟨e5, e6⟩ := e2 tag htag
    have hl := (hids tag htag).2
    have hlen : ((log.col tag).drop s).length = (log.col "time").length - s := by simp [hl]
    have hm : (log.col "time").length - s ≠ 0 := by omega
    rw [e5, e6, ampCol, phaseCol, hlen]
    refine ⟨?_, ?_, ?_, ?_, ?_⟩
    · simp only [List.length_cons, List.length_map, List.length_range']
      omega
    · simp only [List.length_cons, List.length_map, List.length_range']
      omega
    · rw [List.getD_cons_zero, dft_transform, hl]
      simp only [transform, mul_zero, Nat.cast_zero, zero_div, neg_zero, Complex.exp_zero, mul_one]
      rw [Complex.re_sum]
      simp
    · simp
    · intro k hk1 hk2
      obtain ⟨q, rfl⟩ : ∃ q, k = q + 1 := ⟨k - 1, by omega⟩
      have hq : q < ((log.col "time").length - s + 1) / 2 - 2 := by omega
      constructor
      · rw [List.getD_cons_succ]
        simp only [List.getD_eq_getElem?_getD, List.getElem?_map, List.getElem?_range' hq, Option.map_some, Option.getD_some]
        rw [one_mul, Nat.add_comm 1 q, dft_transform, hl, amplitude_eq hm]
        simp only [List.getD_eq_getElem?_getD]
      · rw [List.getD_cons_succ]
        simp only [List.getD_eq_getElem?_getD, List.getElem?_map, List.getElem?_range' hq, Option.map_some, Option.getD_some]
        rw [one_mul, Nat.add_comm 1 q, dft_transform, hl, phase_eq hm]
        simp only [List.getD_eq_getElem?_getD]

/-! ### Tones -/

/-- The transform of a constant plus a cosine with `p` periods in `m` samples. -/
theorem transform_tone (m p : ℕ) (h0 : 0 < p) (h1 : 2 * p < m) (c A φ : ℝ) (k : ℕ) (hk : 2 * k < m) :
    transform m (fun i => c + A * Real.cos (2 * Real.pi * p * i / m + φ)) k =
      if k = 0 then (m * c : ℂ) else if k = p then (m * A / 2 * Complex.exp (φ * Complex.I) : ℂ) else 0 := by
  have hn : m ≠ 0 := by omega
  have hterm : ∀ i ∈ Finset.range m, ((c + A * Real.cos (2 * Real.pi * p * i / m + φ) : ℝ) : ℂ) *
      Complex.exp (-(2 * Real.pi * Complex.I * (i * k : ℕ) / (m : ℕ))) =
      c * E m ((i : ℤ) * (-k)) + (A / 2 * Complex.exp (φ * Complex.I)) * E m ((i : ℤ) * (p - k)) +
        (A / 2 * Complex.exp (-(φ * Complex.I))) * E m ((i : ℤ) * (-p - k)) := by
    intro i _
    have e0 : Complex.exp (-(2 * Real.pi * Complex.I * (i * k : ℕ) / (m : ℕ))) = E m ((i : ℤ) * (-k)) := by
      rw [E]
      congr 1
      push_cast
      ring
    have e1 : Complex.cos ((2 * Real.pi * p * i / m + φ : ℝ) : ℂ) =
        (Complex.exp (φ * Complex.I) * E m ((i : ℤ) * p) + Complex.exp (-(φ * Complex.I)) * E m ((i : ℤ) * (-p))) / 2 := by
      rw [Complex.cos, E, E, ← Complex.exp_add, ← Complex.exp_add]
      congr 3
      · push_cast; ring
      · push_cast; ring
    have e2 : E m ((i : ℤ) * (p - k)) = E m ((i : ℤ) * p) * E m ((i : ℤ) * (-k)) := by rw [← E_add]; congr 1; ring
    have e3 : E m ((i : ℤ) * (-p - k)) = E m ((i : ℤ) * (-p)) * E m ((i : ℤ) * (-k)) := by rw [← E_add]; congr 1; ring
    rw [e0, e2, e3]
    push_cast at e1 ⊢
    rw [e1]
    ring
  unfold transform
  rw [Finset.sum_congr rfl hterm, Finset.sum_add_distrib, Finset.sum_add_distrib, ← Finset.mul_sum, ← Finset.mul_sum, ← Finset.mul_sum,
    E_sum hn, E_sum hn, E_sum hn]
  have hsmall : ∀ z : ℤ, z ≠ 0 → |z| < m → ¬ (m : ℤ) ∣ z := fun z hz hlt hd => hz (Int.eq_zero_of_abs_lt_dvd hd hlt)
  rw [if_neg (hsmall (-p - k) (by omega) (by rw [abs_lt]; omega))]
  rcases Nat.eq_zero_or_pos k with rfl | hkp
  · rw [if_pos (by simp), if_neg (hsmall _ (by omega) (by rw [abs_lt]; omega)), if_pos rfl]
    ring
  · rw [if_neg (hsmall _ (by omega) (by rw [abs_lt]; omega)), if_neg (by omega : ¬ k = 0)]
    by_cases hkk : k = p
    · subst hkk
      rw [if_pos (by simp), if_pos rfl]
      ring
    · rw [if_neg (hsmall _ (by omega) (by rw [abs_lt]; omega)), if_neg hkk]
      ring

/-- **C92.** A tone: rows every `dt`, a column `c + A cos(2πft + φ)` with `A > 0`, whose kept part has a whole number `p` of periods. The frequency
at position `p` is `f`, the amplitude there is `A`, the phase is that of the tone at the first kept row, all other amplitudes are 0; the entry at
frequency 0 is the constant times the number of samples. -/
theorem C92_tone (log : Log ℝ) (ids : List String) (ht : log.has "time" = true)
    (hids : ∀ tag ∈ ids, log.has tag = true ∧ (log.col tag).length = (log.col "time").length) (start dt : ℝ) {s n : ℕ}
    (hn : n = (log.col "time").length) (hs : FirstRow (fun i => (log.col "time").getD i 0) n start s)
    (hlast : start < (log.col "time").getD (n - 1) 0) (tag : String) (htag : tag ∈ ids) (c A φ f : ℝ) (hA : 0 < A)
    (hx : ∀ i, s ≤ i → i < n → (log.col tag).getD i 0 = c + A * Real.cos (2 * Real.pi * f * (i * dt) + φ)) (p : ℕ) (h0 : 0 < p)
    (hp : p < (n - s - 1) / 2) (hf : f * ((n - s : ℕ) * dt) = p) :
    ∃ out, spectralFFT dftReal log ids start dt = .ok out log ∧ (out.col "frequencies").getD p 0 = f ∧
      (out.col (tag ++ "_amplitude")).getD p 0 = A ∧
      (out.col (tag ++ "_phase")).getD p 0 = Complex.arg (Complex.exp ((2 * Real.pi * f * (s * dt) + φ : ℝ) * Complex.I)) ∧
      (∀ k, 0 < k → k < (n - s - 1) / 2 → k ≠ p → (out.col (tag ++ "_amplitude")).getD k 0 = 0) ∧
      (out.col (tag ++ "_amplitude")).getD 0 0 = (n - s : ℕ) * c := by
  obtain ⟨out, e1, -, e2, e3⟩ := C92_spectrum_partial log ids ht hids start dt hn hs hlast
  obtain ⟨-, -, a0, -, ak⟩ := e3 tag htag
  generalize hm : n - s = m at *
  have hm0 : m ≠ 0 := by omega
  have hmr : (m : ℝ) ≠ 0 := by exact_mod_cast hm0
  have hdt : dt ≠ 0 := by
    rintro rfl
    have : (p : ℝ) ≠ 0 := by exact_mod_cast h0.ne'
    simp at hf
    exact this hf.symm
  set ψ : ℝ := 2 * Real.pi * f * (s * dt) + φ with hψ
  have hsig : ∀ i < m, (log.col tag).getD (s + i) 0 = c + A * Real.cos (2 * Real.pi * p * i / m + ψ) := by
    intro i hi
    rw [hx _ (by omega) (by omega), hψ]
    congr 3
    rw [← hf]
    push_cast
    field_simp
    ring
  have htr : ∀ k, transform m (fun i => (log.col tag).getD (s + i) 0) k =
      transform m (fun i => c + A * Real.cos (2 * Real.pi * p * i / m + ψ)) k := by
    intro k
    unfold transform
    refine Finset.sum_congr rfl fun i hi => ?_
    beta_reduce
    rw [hsig i (by simpa using hi)]
  refine ⟨out, e1, ?_, ?_, ?_, ?_, ?_⟩
  · rw [e2]
    simp only [List.getD_eq_getElem?_getD, List.getElem?_map, List.getElem?_range hp, Option.map_some, Option.getD_some]
    rw [← hf]
    field_simp
  · rw [(ak p h0 hp).1, htr, transform_tone m p h0 (by omega) c A ψ p (by omega), if_neg h0.ne', if_pos rfl, norm_mul,
      Complex.norm_exp_ofReal_mul_I]
    simp only [norm_div, norm_mul, Complex.norm_natCast, Complex.norm_real, Real.norm_eq_abs, abs_of_pos hA, Complex.norm_ofNat]
    field_simp
  · rw [(ak p h0 hp).2, htr, transform_tone m p h0 (by omega) c A ψ p (by omega), if_neg h0.ne', if_pos rfl]
    rw [show (m * A / 2 * Complex.exp (ψ * Complex.I) : ℂ) = ((m * A / 2 : ℝ) : ℂ) * Complex.exp (ψ * Complex.I) by push_cast; ring]
    rw [Complex.arg_real_mul _ (by positivity)]
  · intro k hk0 hk hkp
    rw [(ak k hk0 hk).1, htr, transform_tone m p h0 (by omega) c A ψ k (by omega), if_neg hk0.ne', if_neg hkp]
    simp
  · rw [a0]
    have h1 := transform_tone m p h0 (by omega) c A ψ 0 (by omega)
    rw [if_pos rfl, ← htr] at h1
    have h2 : transform m (fun i => (log.col tag).getD (s + i) 0) 0 = ((∑ i ∈ Finset.range m, (log.col tag).getD (s + i) 0 : ℝ) : ℂ) := by
      simp [transform]
    rw [h2] at h1
    exact_mod_cast h1

/-- A log of eight rows with a cosine of one period in the last six. -/
noncomputable def toneLog : Log ℝ :=
  [("m", (List.range 8).map fun i : ℕ => 3 + 2 * Real.cos (2 * Real.pi * (1 / 6) * (i * 1) + 0)), ("time", (List.range 8).map fun i : ℕ => (i : ℝ))]

theorem toneLog_m : toneLog.col "m" = (List.range 8).map fun i : ℕ => 3 + 2 * Real.cos (2 * Real.pi * (1 / 6) * (i * 1) + 0) := by
  simp [toneLog, Log.col]

theorem toneLog_time : toneLog.col "time" = (List.range 8).map fun i : ℕ => (i : ℝ) := by
  simp [toneLog, Log.col]

theorem toneLog_first : FirstRow (fun i => (toneLog.col "time").getD i 0) 8 2 2 := by
  rw [toneLog_time]
  refine ⟨by norm_num, by simp, fun i hi => ?_⟩
  interval_cases i <;> simp

/-- The hypotheses of `C92_spectrum_partial` and `C92_tone`. -/
example : ∃ out, spectralFFT dftReal toneLog ["m"] 2 1 = .ok out toneLog ∧ (out.col "frequencies").getD 1 0 = 1 / 6 ∧
    (out.col "m_amplitude").getD 1 0 = 2 ∧ (out.col "m_amplitude").getD 0 0 = 18 := by
  obtain ⟨out, h1, h2, h3, -, -, h4⟩ := C92_tone toneLog ["m"] rfl (by simp [toneLog, Log.col, Log.has]) 2 1 (s := 2) (n := 8)
    (by simp [toneLog, Log.col]) toneLog_first (by rw [toneLog_time]; simp; norm_num) "m" (by simp) 3 2 0 (1 / 6) (by norm_num)
    (fun i _ hi => by simp [toneLog_m, hi]) 1 (by norm_num) (by norm_num) (by norm_num)
  refine ⟨out, h1, h2, h3, ?_⟩
  rw [show "m_amplitude" = "m" ++ "_amplitude" from rfl, h4]
  norm_num

/-- **C92.** The entry at frequency 0 is not the mean of the column: a constant column 3 in six rows gives 18. -/
theorem C92_mean_refuted : ∃ out, spectralFFT dftReal [("m", [3, 3, 3, 3, 3, 3]), ("time", [0, 1, 2, 3, 4, 5])] ["m"] 0 1 =
      .ok out [("m", [3, 3, 3, 3, 3, 3]), ("time", [0, 1, 2, 3, 4, 5])] ∧ (out.col "m_amplitude").getD 0 0 = 18 ∧
      mean 0 6 (fun i => [(3 : ℝ), 3, 3, 3, 3, 3].getD i 0) = 3 := by
  obtain ⟨out, h1, -, -, h2⟩ := C92_spectrum_partial [("m", [3, 3, 3, 3, 3, 3]), ("time", [0, 1, 2, 3, 4, 5])] ["m"] rfl (by simp [Log.col, Log.has]) 0 1
    (s := 0) (n := 6) rfl ⟨by norm_num, by simp [Log.col], by simp⟩ (by simp [Log.col])
  refine ⟨out, h1, ?_, ?_⟩
  · rw [show "m_amplitude" = "m" ++ "_amplitude" from rfl, (h2 "m" (by simp)).2.2.1]
    simp [Log.col, Finset.sum_range_succ]
    norm_num
  · simp [mean, Finset.sum_range_succ]
    norm_num

/-- **C92.** What is refused: a start not before the last time (the log is unchanged), a tag that is not in the log. -/
theorem C92_refused (dft : List ℝ → ℕ → ℝ × ℝ) (log : Log ℝ) (ids : List String) (ht : log.has "time" = true) (start dt : ℝ) {n : ℕ}
    (hn : (log.col "time").length = n + 1) :
    ((log.col "time").getD n 0 ≤ start → spectralFFT dft log ids start dt = .fail .lateMinTime log) ∧
    (start < (log.col "time").getD n 0 → (∃ tag ∈ ids, tag ∉ log.keys) →
      (∀ tag ∈ log.keys, (log.col tag).length = (log.col "time").length) → spectralFFT dft log ids start dt = .fail .badTag log) := by
  have hg : (log.col "time").getLast? = some ((log.col "time").getD n 0) := by
    rw [List.getLast?_eq_getElem?, hn, Nat.add_sub_cancel, List.getElem?_eq_getElem (by omega)]
    simp [show n < (log.col "time").length by omega]
  constructor
  · intro h
    unfold spectralFFT
    simp only [touch_has ht, hg, Scalar.leb_real, h, decide_true, if_true]
  · intro h hbad hlen
    unfold spectralFFT
    simp only [touch_has ht, hg, Scalar.leb_real, not_le.2 h, decide_false, Bool.false_eq_true, if_false, not_empty ht]
    obtain ⟨s, hs⟩ := first_exists (ts := log.col "time") (start := start) ⟨(log.col "time").getD n 0, by
      rw [List.getD_eq_getElem?_getD, List.getElem?_eq_getElem (by omega)]; simp, h.le⟩
    rw [threshold_first hs]
    have hlt := hs.1
    suffices hx : ∀ res, tagLoop dft log s ((log.col "time").length - s) ids res = .error .badTag by rw [hx]; rfl
    clear hg h
    induction ids with
    | nil => simp at hbad
    | cons t ids ih =>
      intro res
      unfold tagLoop
      by_cases htl : log.has t = true
      · have hl := hlen t ((has_iff _ _).1 htl)
        rw [htl, if_neg (by simp), if_neg (by omega), if_neg (by simp; omega)]
        refine ih ?_ _
        obtain ⟨q, hq1, hq2⟩ := hbad
        rcases List.mem_cons.1 hq1 with rfl | hq1
        · exact absurd ((has_iff _ _).1 htl) hq2
        · exact ⟨q, hq1, hq2⟩
      · rw [if_pos (by simpa using htl)]

/-- **C92.** An empty log is not refused: the last entry of an empty time column is read before the check. -/
theorem C92_empty_refuted (dft : List T → ℕ → T × T) (ids : List String) (start dt : T) :
    spectralFFT dft [] ids start dt = .fail .ub [("time", [])] := rfl

/-- **C92.** With one or two kept rows there are no frequencies but one amplitude. -/
theorem C92_lengths_refuted : ∃ out, spectralFFT dftReal [("m", [3, 3, 3]), ("time", [0, 1, 2])] ["m"] 1 1 =
      .ok out [("m", [3, 3, 3]), ("time", [0, 1, 2])] ∧ (out.col "frequencies").length = 0 ∧ (out.col "m_amplitude").length = 1 := by
  obtain ⟨out, h1, -, h0, h2⟩ := C92_spectrum_partial [("m", [3, 3, 3]), ("time", [0, 1, 2])] ["m"] rfl (by simp [Log.col, Log.has]) 1 1
    (s := 1) (n := 3) rfl ⟨by norm_num, by simp [Log.col], fun i hi => by interval_cases i; simp [Log.col]⟩ (by simp [Log.col])
  exact ⟨out, h1, by rw [h0]; simp, (h2 "m" (by simp)).1⟩

/-- **C92.** On the log of a junction (no energies logged, distinct ids), every choice of columns can be transformed when the last logged time is
after `start`. -/
theorem C92_junction (j0 : Junction ℝ) (h0 : Constructed j0) (hd : DistinctIds j0) (cs : List (Call ℝ)) (hc : ∀ c ∈ cs, c.energiesOnly false)
    (hrun : (program cs j0).logLength ≠ 0) (ids : List String) (hids : ∀ tag ∈ ids, tag ∈ columns false j0) (start dt : ℝ)
    (hlast : start < ((program cs j0).log.col "time").getD ((program cs j0).logLength - 1) 0) :
    ∃ out, spectralFFT dftReal (program cs j0).log ids start dt = .ok out (program cs j0).log := by
  obtain ⟨⟨-, hl⟩, hk⟩ := Junction.C28_aligned j0 h0 hd cs hc
  have m2 := (hk "time").2 ⟨by simp [columns], hrun⟩
  have hlen := hl _ m2
  obtain ⟨s, hs⟩ := first_exists (ts := (program cs j0).log.col "time") (start := start)
    ⟨((program cs j0).log.col "time").getD ((program cs j0).logLength - 1) 0, by
      rw [List.getD_eq_getElem?_getD, List.getElem?_eq_getElem (by omega)]; simp, hlast.le⟩
  obtain ⟨out, h1, -⟩ := C92_spectrum_partial (program cs j0).log ids ((has_iff _ _).2 m2)
    (fun tag ht => by
      have := (hk tag).2 ⟨hids tag ht, hrun⟩
      exact ⟨(has_iff _ _).2 this, (hl _ this).trans hlen.symm⟩) start dt rfl hs (by rw [hlen]; exact hlast)
  exact ⟨out, h1⟩

/-! ### C93: mixed spectra -/

theorem mixLoop_ok (log : Log ℝ) (n : ℕ) (tags : List String) (h : ∀ tag ∈ tags, log.has tag = true ∧ (log.col tag).length = n) (acc : List ℝ)
    (hacc : acc.length = n) :
    mixLoop log tags acc = .ok ((List.range n).map fun i => acc.getD i 0 + (tags.map fun tag => (log.col tag).getD i 0).sum) := by
  induction tags generalizing acc with
  | nil =>
    simp only [mixLoop, List.map_nil, List.sum_nil, add_zero]
    congr 1
    apply List.ext_getElem (by simp [hacc])
    intro i h1 h2
    simp [h1]
  | cons tag tags ih =>
    obtain ⟨h1, h2⟩ := h tag (by simp)
    unfold mixLoop
    rw [h1, if_neg (by simp), if_neg (by omega), ih (fun t ht => h t (by simp [ht])) _ (by simp [hacc, h2])]
    congr 1
    refine List.map_congr_left fun i hi => ?_
    have hi : i < n := by simpa using hi
    simp [hacc, h2, hi, add_assoc]

/-- **C93.** The mixed spectrum of a log with at least three rows, whose mixed columns are as long as the time column: the log is unchanged, the
frequencies are `k/(n dt)` for `k < (n-1)/2`, the amplitudes those of the sum of the columns, one more than frequencies. -/
theorem C93_spectrum_partial (log : Log ℝ) (tags : List String) (ht : log.has "time" = true) {n : ℕ} (hn : (log.col "time").length = n) (h3 : 3 ≤ n)
    (htags : ∀ tag ∈ tags, log.has tag = true ∧ (log.col tag).length = n) (dt : ℝ) :
    ∃ out, spectralFFTMixed dftReal log tags dt = .ok out log ∧
      out.col "frequencies" = (List.range ((n - 1) / 2)).map (fun k : ℕ => (k : ℝ) / (n * dt)) ∧
      (out.col "mixed_amplitude").length = (out.col "frequencies").length + 1 ∧
      (out.col "mixed_amplitude").getD 0 0 = ∑ i ∈ Finset.range n, (tags.map fun tag => (log.col tag).getD i 0).sum ∧
      ∀ k, 0 < k → k ≤ (n - 1) / 2 → (out.col "mixed_amplitude").getD k 0 =
        2 / n * ‖transform n (fun i => (tags.map fun tag => (log.col tag).getD i 0).sum) k‖ := by
  have hmix := mixLoop_ok log n tags htags (List.replicate n (Scalar.lit ((0 : ℕ) : ℚ))) (by simp)
  set sig : List ℝ := (List.range n).map fun i => (List.replicate n (Scalar.lit ((0 : ℕ) : ℚ))).getD i 0 +
    (tags.map fun tag => (log.col tag).getD i 0).sum with hsig
  have hslen : sig.length = n := by simp [hsig]
  have hs : ∀ i < n, sig.getD i 0 = (tags.map fun tag => (log.col tag).getD i 0).sum := by
    intro i hi
    simp [hsig, hi]
  have hdft : ∀ k, dftReal sig k = ((transform n (fun i => (tags.map fun tag => (log.col tag).getD i 0).sum) k).re,
      (transform n (fun i => (tags.map fun tag => (log.col tag).getD i 0).sum) k).im) := by
    intro k
    have := dft_transform sig 0 k
    rw [List.drop_zero, Nat.sub_zero, hslen] at this
    have he : transform n (fun i => sig.getD (0 + i) 0) k = transform n (fun i => (tags.map fun tag => (log.col tag).getD i 0).sum) k := by
      unfold transform
      refine Finset.sum_congr rfl fun i hi => ?_
      beta_reduce
      rw [zero_add, hs i (by simpa using hi)]
    rw [this, he]
  have hne : sig ≠ [] := by
    intro h
    rw [h] at hslen
    simp at hslen
    omega
  refine ⟨[("frequencies", frequencySteps n dt), ("mixed_amplitude",
    (dftReal sig 0).1 :: (List.range' 1 ((sig.length + 1) / 2 - 1)).map fun i => amplitude (norm n) (dftReal sig i))], ?_, ?_, ?_, ?_, ?_⟩
  · unfold spectralFFTMixed
    simp only [touch_has ht, not_empty ht, Bool.false_eq_true, if_false, hn]
    rw [if_neg (by rw [maxIt_eq]; omega)]
    erw [hmix]
    simp only [if_neg hne]
  · simp [Log.col, freqs_eq]
  · simp [Log.col, freqs_eq, hslen]
    omega
  · simp only [Log.col, String.reduceEq, if_false, if_true, List.getD_cons_zero]
    rw [hdft]
    simp only [transform, mul_zero, Nat.cast_zero, zero_div, neg_zero, Complex.exp_zero, mul_one]
    rw [Complex.re_sum]
    simp only [Complex.ofReal_re]
  · intro k hk1 hk2
    obtain ⟨q, rfl⟩ : ∃ q, k = q + 1 := ⟨k - 1, by omega⟩
    have hq : q < (sig.length + 1) / 2 - 1 := by omega
    simp only [Log.col, String.reduceEq, if_false, if_true, List.getD_cons_succ]
    simp only [List.getD_eq_getElem?_getD, List.getElem?_map, List.getElem?_range' hq, Option.map_some, Option.getD_some]
    rw [one_mul, Nat.add_comm 1 q, hdft, amplitude_eq (by omega)]
    simp only [List.getD_eq_getElem?_getD]

/-- **C93.** With fewer than three rows, also on an empty log, the first element of an empty vector is written. -/
theorem C93_short (dft : List T → ℕ → T × T) (log : Log T) (tags : List String) (dt : T) (h : (log.col "time").length < 3) :
    (spectralFFTMixed dft log tags dt).res = .error .ub := by
  have hcol : (touch log "time").col "time" = log.col "time" := by
    unfold touch
    split
    · rfl
    · rename_i h
      have : ∀ L : Log T, L.has "time" ≠ true → (L ++ [("time", [])]).col "time" = [] ∧ L.col "time" = [] := by
        intro L hL
        induction L with
        | nil => simp [Log.col]
        | cons p L ih =>
          obtain ⟨k, v⟩ := p
          by_cases hk : k = "time"
          · simp [Log.has, hk] at hL
          · have := ih (by simpa [Log.has, hk] using hL)
            simpa [Log.col, hk] using this
      rw [(this log h).1, (this log h).2]
  have hne : (touch log "time").isEmpty = false := by
    unfold touch
    split
    · exact not_empty ‹_›
    · cases log <;> rfl
  unfold spectralFFTMixed
  simp only [hcol, hne, Bool.false_eq_true, if_false]
  rw [if_pos (by rw [maxIt_eq]; omega)]
  rfl

/-- **C93.** The order of the columns does not matter. -/
theorem C93_order (log : Log ℝ) (tags tags' : List String) (hp : tags.Perm tags') (ht : log.has "time" = true)
    (htags : ∀ tag ∈ tags, log.has tag = true ∧ (log.col tag).length = (log.col "time").length) (dt : ℝ) :
    spectralFFTMixed dftReal log tags dt = spectralFFTMixed dftReal log tags' dt := by
  have h1 := mixLoop_ok log _ tags htags (List.replicate (log.col "time").length (Scalar.lit ((0 : ℕ) : ℚ))) (by simp)
  have h2 := mixLoop_ok log _ tags' (fun t h => htags t (hp.mem_iff.2 h)) (List.replicate (log.col "time").length (Scalar.lit ((0 : ℕ) : ℚ))) (by simp)
  have : mixLoop log tags (List.replicate (log.col "time").length (Scalar.lit ((0 : ℕ) : ℚ))) =
      mixLoop log tags' (List.replicate (log.col "time").length (Scalar.lit ((0 : ℕ) : ℚ))) := by
    rw [h1, h2]
    congr 1
    refine List.map_congr_left fun i _ => ?_
    rw [(hp.map _).sum_eq]
  unfold spectralFFTMixed
  simp only [touch_has ht]
  erw [this]
  rfl

/-- **C93.** Mixing a single column gives, at the frequencies both have, the amplitudes `spectralFFT` gives for it from the first row on. -/
theorem C93_single (log : Log ℝ) (tag : String) (ht : log.has "time" = true) {n : ℕ} (hn : (log.col "time").length = n) (h3 : 3 ≤ n)
    (htag : log.has tag = true ∧ (log.col tag).length = n) (start dt : ℝ) (hfirst : start ≤ (log.col "time").getD 0 0)
    (hlast : start < (log.col "time").getD (n - 1) 0) :
    ∃ one mixed, spectralFFT dftReal log [tag] start dt = .ok one log ∧ spectralFFTMixed dftReal log [tag] dt = .ok mixed log ∧
      one.col "frequencies" = mixed.col "frequencies" ∧
      ∀ k < (n - 1) / 2, (one.col (tag ++ "_amplitude")).getD k 0 = (mixed.col "mixed_amplitude").getD k 0 := by
  obtain ⟨mixed, b1, b2, -, b3, b4⟩ := C93_spectrum_partial log [tag] ht hn h3 (by simpa using htag) dt
  obtain ⟨one, a1, -, a2, a3⟩ := C92_spectrum_partial log [tag] ht (by simpa [hn] using htag) start dt (s := 0) hn.symm ⟨by omega, hfirst, by simp⟩ hlast
  obtain ⟨-, -, a4, -, a5⟩ := a3 tag (by simp)
  refine ⟨one, mixed, a1, b1, by rw [a2, b2]; simp, fun k hk => ?_⟩
  rcases Nat.eq_zero_or_pos k with rfl | hk0
  · rw [a4, b3]
    simp
  · rw [(a5 k hk0 hk).1, b4 k hk0 hk.le]
    simp

/-- **C93.** Three rows: one frequency, two amplitudes. -/
theorem C93_refuted : ∃ out, spectralFFTMixed dftReal [("m", [3, 3, 3]), ("time", [0, 1, 2])] ["m"] 1 =
      .ok out [("m", [3, 3, 3]), ("time", [0, 1, 2])] ∧ (out.col "frequencies").length = 1 ∧ (out.col "mixed_amplitude").length = 2 := by
  obtain ⟨out, h1, h2, h3, -⟩ := C93_spectrum_partial [("m", [3, 3, 3]), ("time", [0, 1, 2])] ["m"] rfl (n := 3) rfl (by norm_num)
    (by simp [Log.col, Log.has]) 1
  exact ⟨out, h1, by rw [h2]; simp, by rw [h3, h2]; simp⟩

/-- The hypotheses of the theorems on mixed spectra. -/
example : ∃ out, spectralFFTMixed dftReal toneLog ["m", "time", "m"] 1 = .ok out toneLog ∧ (out.col "mixed_amplitude").length = 4 := by
  obtain ⟨out, h1, h2, h3, -⟩ := C93_spectrum_partial toneLog ["m", "time", "m"] rfl (n := 8) (by simp [toneLog_time]) (by norm_num)
    (by simp [toneLog, Log.col, Log.has]) 1
  exact ⟨out, h1, by rw [h3, h2]; simp⟩

end Compute
