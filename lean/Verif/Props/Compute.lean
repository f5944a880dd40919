import Verif.Model.Compute
import Verif.Spec.Compute
import Verif.Props.Logs
import Verif.Props.Colour

set_option linter.unusedSectionVars false

/-!
# C91: the spin diode of `compute.hpp`
-/

namespace Compute
open Spec AlphaFilter
variable {T : Type} [Scalar T]

/-! ### Logs -/

theorem has_iff (L : Log T) (key : String) : L.has key = true ↔ key ∈ L.keys := by
  induction L with
  | nil => simp [Log.has, Log.keys]
  | cons p L ih =>
    obtain ⟨k, v⟩ := p
    by_cases h : k = key
    · subst h; simp [Log.has, Log.keys]
    · have : Log.has ((k, v) :: L) key = Log.has L key := by simp [Log.has, h]
      rw [this, ih]
      simp [Log.keys, Ne.symm h]

theorem touch_has {L : Log T} {key : String} (h : L.has key = true) : touch L key = L := by simp [touch, h]

theorem not_empty {L : Log T} {key : String} (h : L.has key = true) : L.isEmpty = false := by
  cases L with
  | nil => simp [Log.has] at h
  | cons p L => rfl

/-! ### The first row -/

theorem threshold_first {ts : List ℝ} {start : ℝ} {s : ℕ} (h : FirstRow (fun i => ts.getD i 0) ts.length start s) :
    threshold ts start = s := by
  obtain ⟨h1, h2, h3⟩ := h
  unfold threshold
  rw [List.findIdx_eq h1]
  refine ⟨by simpa [h1] using h2, fun j hj => ?_⟩
  have := h3 j hj
  simpa [Nat.lt_trans hj h1] using this

theorem threshold_none {ts : List ℝ} {start : ℝ} (h : ∀ t ∈ ts, t < start) : threshold ts start = ts.length := by
  unfold threshold
  rw [List.findIdx_eq_length]
  simpa using h

theorem first_exists {ts : List ℝ} {start : ℝ} (h : ∃ t ∈ ts, start ≤ t) : ∃ s, FirstRow (fun i => ts.getD i 0) ts.length start s := by
  have hlt : threshold ts start < ts.length := by
    unfold threshold
    rw [List.findIdx_lt_length]
    simpa using h
  refine ⟨threshold ts start, hlt, ?_, fun i hi => ?_⟩
  · have : Scalar.leb start (ts[threshold ts start]'hlt) = true := List.findIdx_getElem (w := hlt)
    simpa [hlt] using this
  · have := List.not_of_lt_findIdx hi
    have hi' := Nat.lt_trans hi hlt
    simpa [hi'] using this

theorem foldl_add (l : List ℝ) (a : ℝ) : l.foldl (· + ·) a = a + l.sum := by
  induction l generalizing a with
  | nil => simp
  | cons x l ih => simp [ih, add_assoc]

theorem drop_sum (l : List ℝ) (s : ℕ) : (l.drop s).sum = ∑ i ∈ Finset.Ico s l.length, l.getD i 0 := by
  rw [Finset.sum_Ico_eq_sum_range]
  have : l.drop s = (List.range (l.length - s)).map fun i => l.getD (s + i) 0 := by
    apply List.ext_getElem (by simp)
    intro i h1 h2
    have h1 : i < l.length - s := by simpa using h1
    have : s + i < l.length := by omega
    simp [this]
  rw [this, Finset.sum_range, ← List.sum_ofFn]
  congr 1
  apply List.ext_getElem (by simp)
  intro i h1 h2
  simp

theorem max_fold (xs : List ℝ) (x : ℝ) :
    xs.foldl (fun m v => if Scalar.ltb m v then v else m) x ∈ x :: xs ∧
      ∀ y ∈ x :: xs, y ≤ xs.foldl (fun m v => if Scalar.ltb m v then v else m) x := by
  induction xs generalizing x with
  | nil => simp
  | cons y ys ih =>
    obtain ⟨h1, h2⟩ := ih (if Scalar.ltb x y then y else x)
    rw [List.foldl_cons]
    generalize ys.foldl _ _ = m at h1 h2 ⊢
    by_cases hxy : x < y
    · rw [if_pos (by simpa using hxy)] at h1 h2
      refine ⟨List.mem_cons_of_mem _ h1, fun z hz => ?_⟩
      rcases List.mem_cons.1 hz with rfl | hz
      · exact hxy.le.trans (h2 y (by simp))
      · exact h2 z hz
    · rw [if_neg (by simpa using hxy)] at h1 h2
      refine ⟨?_, fun z hz => ?_⟩
      · rcases List.mem_cons.1 h1 with rfl | h1
        · simp
        · simp [h1]
      · rcases List.mem_cons.1 hz with rfl | hz
        · exact h2 _ (by simp)
        · rcases List.mem_cons.1 hz with rfl | hz
          · exact (not_lt.1 hxy).trans (h2 x (by simp))
          · exact h2 _ (List.mem_cons_of_mem _ hz)

theorem min_fold (xs : List ℝ) (x : ℝ) :
    xs.foldl (fun m v => if Scalar.ltb v m then v else m) x ∈ x :: xs ∧
      ∀ y ∈ x :: xs, xs.foldl (fun m v => if Scalar.ltb v m then v else m) x ≤ y := by
  induction xs generalizing x with
  | nil => simp
  | cons y ys ih =>
    obtain ⟨h1, h2⟩ := ih (if Scalar.ltb y x then y else x)
    rw [List.foldl_cons]
    generalize ys.foldl _ _ = m at h1 h2 ⊢
    by_cases hxy : y < x
    · rw [if_pos (by simpa using hxy)] at h1 h2
      refine ⟨List.mem_cons_of_mem _ h1, fun z hz => ?_⟩
      rcases List.mem_cons.1 hz with rfl | hz
      · exact (h2 y (by simp)).trans hxy.le
      · exact h2 z hz
    · rw [if_neg (by simpa using hxy)] at h1 h2
      refine ⟨?_, fun z hz => ?_⟩
      · rcases List.mem_cons.1 h1 with rfl | h1
        · simp
        · simp [h1]
      · rcases List.mem_cons.1 hz with rfl | hz
        · exact h2 _ (by simp)
        · rcases List.mem_cons.1 hz with rfl | hz
          · exact (h2 x (by simp)).trans (not_lt.1 hxy)
          · exact h2 _ (List.mem_cons_of_mem _ hz)

theorem mem_drop_iff (l : List ℝ) (s : ℕ) (x : ℝ) : x ∈ l.drop s ↔ ∃ i ∈ Finset.Ico s l.length, l.getD i 0 = x := by
  rw [List.mem_iff_getElem]
  constructor
  · rintro ⟨i, hi, rfl⟩
    have hi : i < l.length - s := by simpa using hi
    have : s + i < l.length := by omega
    exact ⟨s + i, by simp [this], by simp [this]⟩
  · rintro ⟨i, hi, rfl⟩
    obtain ⟨h1, h2⟩ := Finset.mem_Ico.1 hi
    refine ⟨i - s, by simp; omega, ?_⟩
    simp [h2, Nat.add_sub_cancel' h1]

/-! ### The voltage -/

theorem diode_eq (rs ts : List ℝ) (s : ℕ) (hlen : rs.length = ts.length) (hs : s < rs.length) (f power : ℝ) :
    ∃ d, diode (rs.drop s) (ts.drop s) f power = .ok d ∧
      d.Vmix = rectified (fun i => rs.getD i 0) (fun i => ts.getD i 0) s rs.length f power ∧
      (∀ i ∈ Finset.Ico s rs.length, d.RMin ≤ rs.getD i 0 ∧ rs.getD i 0 ≤ d.RMax) ∧
      (∃ i ∈ Finset.Ico s rs.length, rs.getD i 0 = d.RMax) ∧ (∃ i ∈ Finset.Ico s rs.length, rs.getD i 0 = d.RMin) ∧
      d.Rpp = d.RMax - d.RMin := by
  rcases hd : rs.drop s with _ | ⟨x, xs⟩
  · have := congrArg List.length hd
    simp at this
    omega
  obtain ⟨a1, a2⟩ := max_fold xs x
  obtain ⟨b1, b2⟩ := min_fold xs x
  rw [← hd] at a1 a2 b1 b2
  rw [mem_drop_iff] at a1 b1
  unfold diode
  simp only [maxElement, minElement]
  generalize xs.foldl (fun m v => if Scalar.ltb m v then v else m) x = M at a1 a2 ⊢
  generalize xs.foldl (fun m v => if Scalar.ltb v m then v else m) x = N at b1 b2 ⊢
  rw [← hd]
  clear hd
  rw [if_neg (by simp; omega)]
  refine ⟨_, rfl, ?_, fun i hi => ⟨b2 _ ((mem_drop_iff _ _ _).2 ⟨i, hi, rfl⟩), a2 _ ((mem_drop_iff _ _ _).2 ⟨i, hi, rfl⟩)⟩, a1, b1, rfl⟩
  simp only [Scalar.sqrt_real, Scalar.sin_real, Scalar.pi_real, Scalar.lit_real, Scalar.ofNat_real]
  have havg : (rs.drop s).foldl (· + ·) ((0 : ℕ) : ℝ) / (((ts.drop s).length : ℚ) : ℝ) = mean s rs.length fun i => rs.getD i 0 := by
    rw [foldl_add, drop_sum, mean]
    simp [hlen]
  rw [havg, List.zipWith_map_right, ← List.drop_zipWith, foldl_add, drop_sum]
  simp only [List.length_zipWith, List.length_drop, hlen, min_self]
  unfold rectified mean
  push_cast
  rw [zero_add]
  congr 1
  refine Finset.sum_congr rfl fun i hi => ?_
  obtain ⟨h1, h2⟩ := Finset.mem_Ico.1 hi
  have h3 : i < rs.length := by omega
  simp [List.getD_eq_getElem?_getD, h2, h3]

/-- **C91.** The value computed from a log whose columns `time` and `tag` have the same length, from the first time not before `start` on. The
extreme resistances are attained and bound all others. The log is unchanged. -/
theorem C91_value_partial (log : Log ℝ) (tag : String) (h1 : log.has tag = true) (h2 : log.has "time" = true)
    (hlen : (log.col tag).length = (log.col "time").length) (f power start : ℝ) {s n : ℕ} (hn : n = (log.col "time").length)
    (hs : FirstRow (fun i => (log.col "time").getD i 0) n start s) :
    ∃ d, calculateVoltageSpinDiode log tag f power start = .ok d log ∧
      d.Vmix = rectified (fun i => (log.col tag).getD i 0) (fun i => (log.col "time").getD i 0) s n f power ∧
      (∀ i ∈ Finset.Ico s n, d.RMin ≤ (log.col tag).getD i 0 ∧ (log.col tag).getD i 0 ≤ d.RMax) ∧
      (∃ i ∈ Finset.Ico s n, (log.col tag).getD i 0 = d.RMax) ∧ (∃ i ∈ Finset.Ico s n, (log.col tag).getD i 0 = d.RMin) ∧
      d.Rpp = d.RMax - d.RMin := by
  subst hn
  have hlt := hs.1
  obtain ⟨d, hd, hrest⟩ := diode_eq (log.col tag) (log.col "time") s hlen (by omega) f power
  rw [hlen] at hrest
  refine ⟨d, ?_, hrest⟩
  unfold calculateVoltageSpinDiode
  rw [not_empty h1, h1]
  simp only [Bool.false_eq_true, if_false, Bool.not_true, touch_has h2, threshold_first hs]
  rw [if_neg (by omega), hd]
  rfl

/-- **C91.** Refusals leave the log alone: no columns at all, or no column with the given name. -/
theorem C91_refused (log : Log T) (tag : String) (f power start : T) :
    (log = [] → calculateVoltageSpinDiode log tag f power start = .fail .emptyLog log) ∧
    (log ≠ [] → tag ∉ log.keys → calculateVoltageSpinDiode log tag f power start = .fail .badTag log) := by
  constructor
  · rintro rfl
    rfl
  · intro h0 h
    have h1 : log.has tag = false := by
      rw [← Bool.not_eq_true, has_iff]
      exact h
    have h2 : log.isEmpty = false := by cases log <;> simp_all
    unfold calculateVoltageSpinDiode
    rw [h1, h2]
    simp

/-- **C91.** A start later than every logged time is not refused: the largest element of an empty range is read. -/
theorem C91_late_refuted (log : Log ℝ) (tag : String) (h1 : log.has tag = true) (h2 : log.has "time" = true)
    (hlen : (log.col tag).length = (log.col "time").length) (f power start : ℝ) (hl : ∀ t ∈ log.col "time", t < start) :
    calculateVoltageSpinDiode log tag f power start = .fail .ub log := by
  unfold calculateVoltageSpinDiode
  rw [not_empty h1, h1]
  simp only [Bool.false_eq_true, if_false, Bool.not_true, touch_has h2, threshold_none hl]
  rw [if_neg (by omega), ← hlen, List.drop_length]
  rfl

/-- The hypotheses of `C91_value_partial` on a log of three rows, from the second on. -/
example : ∃ d, calculateVoltageSpinDiode [("R", [(1 : ℝ), 4, 2]), ("time", [0, 1, 2])] "R" (1 / 4) 3 1 =
    .ok d [("R", [(1 : ℝ), 4, 2]), ("time", [0, 1, 2])] ∧ d.Vmix = 2 ∧ d.RMax = 4 ∧ d.RMin = 2 := by
  obtain ⟨d, h1, h2, h3, ⟨i, hi, h4⟩, ⟨k, hk, h5⟩, -⟩ := C91_value_partial [("R", [(1 : ℝ), 4, 2]), ("time", [0, 1, 2])] "R" rfl rfl rfl (1 / 4) 3 1 (s := 1)
    (n := 3) rfl ⟨by norm_num, by simp [Log.col], fun i hi => by interval_cases i; simp [Log.col]⟩
  refine ⟨d, h1, ?_, ?_, ?_⟩
  · rw [h2, rectified, mean, mean]
    have : Finset.Ico 1 3 = {1, 2} := by decide
    rw [this]
    simp only [Finset.sum_pair (by norm_num : (1 : ℕ) ≠ 2)]
    simp only [Log.col, List.getD_eq_getElem?_getD]
    simp only [String.reduceEq, if_true, if_false, List.getElem?_cons_succ, List.getElem?_cons_zero, Option.getD_some]
    rw [show 2 * Real.pi * (1 / 4) * 1 = Real.pi / 2 by ring, show 2 * Real.pi * (1 / 4) * 2 = Real.pi by ring, Real.sin_pi_div_two,
      Real.sin_pi, show (3 : ℝ) / ((4 + 2) / ((3 - 1 : ℕ) : ℝ)) = 1 by norm_num, Real.sqrt_one]
    norm_num
  · have a := (h3 1 (by decide)).2
    obtain ⟨i1, i2⟩ := Finset.mem_Ico.1 hi
    interval_cases i <;> simp [Log.col] at a h4 <;> linarith
  · have a := (h3 2 (by decide)).1
    obtain ⟨i1, i2⟩ := Finset.mem_Ico.1 hk
    interval_cases k <;> simp [Log.col] at a h5 <;> linarith

/-! ### Rectification -/

theorem wave_sum {m : ℕ} (hm : m ≠ 0) {k : ℤ} (hk : ¬ (m : ℤ) ∣ k) (α : ℝ) :
    ∑ i ∈ Finset.range m, Real.cos (α + 2 * Real.pi * k * i / m) = 0 ∧
      ∑ i ∈ Finset.range m, Real.sin (α + 2 * Real.pi * k * i / m) = 0 := by
  have h : ∑ i ∈ Finset.range m, Complex.exp ((α + 2 * Real.pi * k * i / m : ℝ) * Complex.I) = 0 := by
    have he : ∀ i : ℕ, Complex.exp ((α + 2 * Real.pi * k * i / m : ℝ) * Complex.I) = Complex.exp (α * Complex.I) * E m (i * k) := by
      intro i
      rw [E, ← Complex.exp_add]
      congr 1
      push_cast
      ring
    simp only [he]
    rw [← Finset.mul_sum, E_sum hm, if_neg hk, mul_zero]
  constructor
  · have := congrArg Complex.re h
    simpa only [Complex.re_sum, Complex.exp_ofReal_mul_I_re, Complex.zero_re] using this
  · have := congrArg Complex.im h
    simpa only [Complex.im_sum, Complex.exp_ofReal_mul_I_im, Complex.zero_im] using this

theorem mean_eq (s n : ℕ) (x : ℕ → ℝ) : mean s n x = (∑ i ∈ Finset.range (n - s), x (s + i)) / (n - s : ℕ) := by
  rw [mean, Finset.sum_Ico_eq_sum_range]

/-- **C91.** Rectification: if the resistance oscillates about `R₀` with the frequency `f` of the current, amplitude `A` and phase `φ`, and the
`n - s` rows cover a whole number `p` of periods (which are sampled more than twice), the voltage is `A cos φ / 2` times the current. -/
theorem C91_rectified (s n p : ℕ) (hp : 0 < p) (hsn : 2 * p < n - s) (dt t0 f power R0 A φ : ℝ)
    (hperiod : f * ((n - s : ℕ) * dt) = p) :
    rectified (fun i => R0 + A * Real.sin (2 * Real.pi * f * (t0 + i * dt) + φ)) (fun i => t0 + i * dt) s n f power =
      √(power / R0) * (A * Real.cos φ / 2) := by
  generalize hm : n - s = m at hsn hperiod
  have hm0 : m ≠ 0 := by omega
  have hmr : (m : ℝ) ≠ 0 := by exact_mod_cast hm0
  have hfd : ∀ i : ℕ, f * (i * dt) = p * i / m := fun i => by
    field_simp
    linear_combination (i : ℝ) * hperiod
  have hsmall : ∀ z : ℤ, z ≠ 0 → |z| < m → ¬ (m : ℤ) ∣ z := fun z hz hlt hd => hz (Int.eq_zero_of_abs_lt_dvd hd hlt)
  have d1 : ¬ (m : ℤ) ∣ (p : ℤ) := hsmall _ (by omega) (by rw [abs_lt]; omega)
  have d2 : ¬ (m : ℤ) ∣ ((2 * p : ℕ) : ℤ) := hsmall _ (by omega) (by rw [abs_lt]; omega)
  set θ : ℝ := 2 * Real.pi * f * (t0 + s * dt) with hθ
  have harg : ∀ i : ℕ, 2 * Real.pi * f * (t0 + (s + i : ℕ) * dt) = θ + 2 * Real.pi * (p : ℤ) * i / m := by
    intro i
    rw [hθ]
    push_cast
    linear_combination (2 * Real.pi) * hfd i
  have hmean : mean s n (fun i => R0 + A * Real.sin (2 * Real.pi * f * (t0 + i * dt) + φ)) = R0 := by
    rw [mean_eq, hm, Finset.sum_add_distrib, ← Finset.mul_sum]
    have : ∑ i ∈ Finset.range m, Real.sin (2 * Real.pi * f * (t0 + (s + i : ℕ) * dt) + φ) = 0 := by
      rw [← (wave_sum hm0 d1 (θ + φ)).2]
      refine Finset.sum_congr rfl fun i _ => ?_
      rw [harg]
      congr 1
      ring
    rw [this]
    simp only [Finset.sum_const, Finset.card_range, nsmul_eq_mul, mul_zero, add_zero]
    field_simp
  unfold rectified
  rw [hmean, mean_eq, hm]
  have hterm : ∀ i ∈ Finset.range m, (fun i : ℕ => (R0 + A * Real.sin (2 * Real.pi * f * (t0 + i * dt) + φ)) *
      (√(power / R0) * Real.sin (2 * Real.pi * f * (t0 + i * dt)))) (s + i) =
      √(power / R0) * (R0 * Real.sin (θ + 2 * Real.pi * (p : ℤ) * i / m) +
        A / 2 * (Real.cos φ - Real.cos ((2 * θ + φ) + 2 * Real.pi * ((2 * p : ℕ) : ℤ) * i / m))) := by
    intro i _
    simp only []
    rw [harg]
    set x := θ + 2 * Real.pi * (p : ℤ) * i / m with hx
    have e : (2 * θ + φ) + 2 * Real.pi * ((2 * p : ℕ) : ℤ) * i / m = x + (x + φ) := by
      rw [hx]
      push_cast
      ring
    have e2 : Real.cos φ = Real.cos ((x + φ) - x) := by congr 1; ring
    rw [e, e2, Real.cos_add, Real.cos_sub]
    ring
  rw [Finset.sum_congr rfl hterm, ← Finset.mul_sum, Finset.sum_add_distrib, ← Finset.mul_sum, ← Finset.mul_sum, Finset.sum_sub_distrib,
    (wave_sum hm0 d1 θ).2, (wave_sum hm0 d2 (2 * θ + φ)).1]
  simp only [Finset.sum_const, Finset.card_range, nsmul_eq_mul, mul_zero, zero_add, sub_zero]
  field_simp

/-- The hypotheses of `C91_rectified`: a period of four samples from the third row on. -/
example : rectified (fun i => 100 + 5 * Real.sin (2 * Real.pi * (1 / 4) * (0 + i * 1) + Real.pi / 3)) (fun i => 0 + i * 1) 2 6 (1 / 4) 400 = 5 / 2 := by
  rw [C91_rectified 2 6 1 (by norm_num) (by norm_num) 1 0 (1 / 4) 400 100 5 (Real.pi / 3) (by norm_num)]
  rw [Real.cos_pi_div_three, show (400 : ℝ) / 100 = 2 ^ 2 by norm_num, Real.sqrt_sq (by norm_num)]
  norm_num

/-! ### Logs of junctions -/

/-- **C91.** On the log of a junction (no energies logged, distinct ids): for every column of the log, the call succeeds and leaves the log alone
if some logged time is not before `start`, and is undefined behaviour otherwise. -/
theorem C91_junction (j0 : Junction ℝ) (h0 : Constructed j0) (hd : DistinctIds j0) (cs : List (Call ℝ)) (hc : ∀ c ∈ cs, c.energiesOnly false)
    (hrun : (program cs j0).logLength ≠ 0) (tag : String) (htag : tag ∈ columns false j0) (f power start : ℝ) :
    let log := (program cs j0).log
    ((∃ t ∈ log.col "time", start ≤ t) → ∃ d s, calculateVoltageSpinDiode log tag f power start = .ok d log ∧
      FirstRow (fun i => (log.col "time").getD i 0) (program cs j0).logLength start s ∧
      d.Vmix = rectified (fun i => (log.col tag).getD i 0) (fun i => (log.col "time").getD i 0) s (program cs j0).logLength f power) ∧
    ((∀ t ∈ log.col "time", t < start) → calculateVoltageSpinDiode log tag f power start = .fail .ub log) := by
  obtain ⟨⟨-, hl⟩, hk⟩ := Junction.C28_aligned j0 h0 hd cs hc
  have m1 := (hk tag).2 ⟨htag, hrun⟩
  have m2 := (hk "time").2 ⟨by simp [columns], hrun⟩
  have hlen := (hl _ m1).trans (hl _ m2).symm
  refine ⟨fun h => ?_, C91_late_refuted _ _ ((has_iff _ _).2 m1) ((has_iff _ _).2 m2) hlen f power start⟩
  obtain ⟨s, hs⟩ := first_exists h
  obtain ⟨d, h1, h2, -⟩ := C91_value_partial _ tag ((has_iff _ _).2 m1) ((has_iff _ _).2 m2) hlen f power start rfl hs
  rw [hl _ m2] at hs h2
  exact ⟨d, s, h1, hs, h2⟩

end Compute
