import Verif.Rounding
import Verif.Lemmas.Normalised
import Verif.Props.Runs
import Mathlib.Tactic.Positivity

/-!
C117, C118. The magnetisation and the number of steps in rounded arithmetic.
-/

set_option linter.unusedSectionVars false
set_option linter.unusedSimpArgs false

namespace Spec

/-- Euclidean length of the vector that `v` stands for. -/
noncomputable def roundedLength {T : Type} [Scalar T] {u : ℝ} (R : Rounding T u) (v : CVec T) : ℝ :=
  Real.sqrt (R.val v.x ^ 2 + R.val v.y ^ 2 + R.val v.z ^ 2)

end Spec

open Spec

theorem Close.le {u x y : ℝ} (h : Close u x y) (hy : 0 ≤ y) : (1 - u) * y ≤ x ∧ x ≤ (1 + u) * y := by
  have := abs_le.1 h
  rw [abs_of_nonneg hy] at this
  constructor <;> linarith [this.1, this.2]

theorem Close.sq {u x y : ℝ} (h : Close u x y) (hu : u ≤ 1) : (1 - u) ^ 2 * y ^ 2 ≤ x ^ 2 ∧ x ^ 2 ≤ (1 + u) ^ 2 * y ^ 2 := by
  have h1 : |x| ≤ (1 + u) * |y| := by
    have := abs_add_le (x - y) y
    rw [sub_add_cancel] at this
    unfold Close at h
    linarith
  have h2 : (1 - u) * |y| ≤ |x| := by
    have := abs_add_le (y - x) x
    rw [sub_add_cancel, abs_sub_comm] at this
    unfold Close at h
    linarith
  rw [← sq_abs x, ← sq_abs y, ← mul_pow, ← mul_pow]
  have hy := abs_nonneg y
  exact ⟨pow_le_pow_left₀ (mul_nonneg (by linarith) hy) h2 2, pow_le_pow_left₀ (abs_nonneg x) h1 2⟩

theorem upper_bound {u : ℝ} (h0 : 0 ≤ u) (hu : u ≤ 1 / 30) : (1 + u) ^ 2 ≤ (1 + 4 * u) ^ 2 * (1 - u) ^ 5 := by
  have k : 1 - 5 * u ≤ (1 - u) ^ 5 := by
    calc _ = 1 + ((5 : ℕ) : ℝ) * -u := by push_cast; ring
      _ ≤ (1 + -u) ^ 5 := one_add_mul_le_pow (a := -u) (by linarith) 5
      _ = _ := by ring
  refine le_trans ?_ (mul_le_mul_of_nonneg_left k (sq_nonneg (1 + 4 * u)))
  have h2 : u ^ 2 ≤ 1 / 900 := by rw [show (1 / 900 : ℝ) = (1 / 30) ^ 2 by norm_num]; exact pow_le_pow_left₀ h0 hu 2
  have : 0 ≤ u * (1 - 25 * u - 80 * u ^ 2) := mul_nonneg h0 (by linarith)
  linear_combination this

theorem lower_bound {u : ℝ} (h0 : 0 ≤ u) (hu : u ≤ 1 / 30) : (1 - 4 * u) ^ 2 * (1 + u) ^ 5 ≤ (1 - u) ^ 2 := by
  have h2 : u ^ 2 ≤ 1 / 900 := by rw [show (1 / 900 : ℝ) = (1 / 30) ^ 2 by norm_num]; exact pow_le_pow_left₀ h0 hu 2
  have h3 : u ^ 3 ≤ 1 / 27000 := by rw [show (1 / 27000 : ℝ) = (1 / 30) ^ 3 by norm_num]; exact pow_le_pow_left₀ h0 hu 3
  have k : (1 + u) ^ 5 ≤ 1 + 5 * u + 11 * u ^ 2 := by
    have : 0 ≤ u ^ 2 * (1 - 10 * u - 5 * u ^ 2 - u ^ 3) := mul_nonneg (sq_nonneg _) (by linarith)
    linear_combination this
  refine (mul_le_mul_of_nonneg_left k (sq_nonneg (1 - 4 * u))).trans ?_
  have q2 := sq_nonneg u
  have : 0 ≤ u * (1 + 14 * u + 8 * u ^ 2 - 176 * u ^ 3) := mul_nonneg h0 (by linarith)
  linear_combination this

namespace CVec
variable {T : Type} [Scalar T] {u : ℝ}

/-- the rounded square of the length -/
theorem length_rounded (R : Rounding T u) (hu : u ≤ 1 / 30) (v : CVec T) :
    (1 - u) ^ 5 * (R.val v.x ^ 2 + R.val v.y ^ 2 + R.val v.z ^ 2) ≤ R.val v.length ^ 2 ∧
      R.val v.length ^ 2 ≤ (1 + u) ^ 5 * (R.val v.x ^ 2 + R.val v.y ^ 2 + R.val v.z ^ 2) := by
  have h0 := R.nonneg
  obtain ⟨a1, a2⟩ := (R.powi v.x 2).le (sq_nonneg _)
  obtain ⟨b1, b2⟩ := (R.powi v.y 2).le (sq_nonneg _)
  obtain ⟨c1, c2⟩ := (R.powi v.z 2).le (sq_nonneg _)
  have qa := sq_nonneg (R.val v.x)
  have qb := sq_nonneg (R.val v.y)
  have qc := sq_nonneg (R.val v.z)
  generalize R.val v.x ^ 2 = A at *
  generalize R.val v.y ^ 2 = B at *
  generalize R.val v.z ^ 2 = C at *
  have w : 0 ≤ 1 - u := by linarith
  have pA : 0 ≤ R.val (Scalar.powi v.x 2) := (mul_nonneg w qa).trans a1
  have pB : 0 ≤ R.val (Scalar.powi v.y 2) := (mul_nonneg w qb).trans b1
  have pC : 0 ≤ R.val (Scalar.powi v.z 2) := (mul_nonneg w qc).trans c1
  obtain ⟨d1, d2⟩ := (R.add (Scalar.powi v.x 2) (Scalar.powi v.y 2)).le (by linarith)
  have pD : 0 ≤ R.val (Scalar.powi v.x 2 + Scalar.powi v.y 2) := (mul_nonneg w (by linarith)).trans d1
  obtain ⟨e1, e2⟩ := (R.add (Scalar.powi v.x 2 + Scalar.powi v.y 2) (Scalar.powi v.z 2)).le (by linarith)
  have pE : 0 ≤ R.val (Scalar.powi v.x 2 + Scalar.powi v.y 2 + Scalar.powi v.z 2) := (mul_nonneg w (by linarith)).trans e1
  obtain ⟨f1, f2⟩ := (R.sqrt _ pE).sq (by linarith)
  rw [Real.sq_sqrt pE] at f1 f2
  generalize R.val (Scalar.powi v.x 2) = x1 at *
  generalize R.val (Scalar.powi v.y 2) = y1 at *
  generalize R.val (Scalar.powi v.z 2) = z1 at *
  generalize R.val (Scalar.powi v.x 2 + Scalar.powi v.y 2) = s1 at *
  have hL : R.val v.length = R.val (Scalar.sqrt (Scalar.powi v.x 2 + Scalar.powi v.y 2 + Scalar.powi v.z 2)) := rfl
  rw [hL]
  generalize R.val (Scalar.powi v.x 2 + Scalar.powi v.y 2 + Scalar.powi v.z 2) = s2 at *
  have w1 : 1 - u ≤ 1 := by linarith
  have w2 : 1 ≤ 1 + u := by linarith
  have lo : (1 - u) ^ 3 * (A + B + C) ≤ s2 := by
    have k1 : (1 - u) * ((1 - u) * (A + B)) ≤ s1 := (mul_le_mul_of_nonneg_left (by linarith) w).trans d1
    have k2 : (1 - u) * ((1 - u) * C) ≤ z1 := (mul_le_of_le_one_left (mul_nonneg w qc) w1).trans c1
    have k3 : (1 - u) * ((1 - u) * ((1 - u) * (A + B)) + (1 - u) * ((1 - u) * C)) ≤ s2 :=
      (mul_le_mul_of_nonneg_left (by linarith) w).trans e1
    calc _ = (1 - u) * ((1 - u) * ((1 - u) * (A + B)) + (1 - u) * ((1 - u) * C)) := by ring
      _ ≤ s2 := k3
  have hi : s2 ≤ (1 + u) ^ 3 * (A + B + C) := by
    have w' : 0 ≤ 1 + u := by linarith
    have k1 : s1 ≤ (1 + u) * ((1 + u) * (A + B)) := d2.trans (mul_le_mul_of_nonneg_left (by linarith) w')
    have k2 : z1 ≤ (1 + u) * ((1 + u) * C) := c2.trans (le_mul_of_one_le_left (mul_nonneg w' qc) w2)
    have k3 : s2 ≤ (1 + u) * ((1 + u) * ((1 + u) * (A + B)) + (1 + u) * ((1 + u) * C)) :=
      e2.trans (mul_le_mul_of_nonneg_left (by linarith) w')
    calc s2 ≤ _ := k3
      _ = _ := by ring
  constructor
  · refine le_trans ?_ f1
    have := mul_le_mul_of_nonneg_left lo (sq_nonneg (1 - u))
    calc _ = (1 - u) ^ 2 * ((1 - u) ^ 3 * (A + B + C)) := by ring
      _ ≤ _ := this
  · refine f2.trans ?_
    have := mul_le_mul_of_nonneg_left hi (sq_nonneg (1 + u))
    calc _ ≤ (1 + u) ^ 2 * ((1 + u) ^ 3 * (A + B + C)) := this
      _ = _ := by ring

/-- C117. In rounded arithmetic a normalised vector has length one up to four rounding errors, or is zero. -/
theorem C117_normalize (R : Rounding T u) (hu : u ≤ 1 / 30) (v : CVec T) :
    |roundedLength R v.normalize - 1| ≤ 4 * u ∨
      (R.val v.normalize.x = 0 ∧ R.val v.normalize.y = 0 ∧ R.val v.normalize.z = 0) := by
  have h0 := R.nonneg
  obtain ⟨l1, l2⟩ := length_rounded R hu v
  have hz : R.val (0 : T) = 0 := R.zero
  have w : 0 < 1 - u := by linarith
  unfold normalize
  dsimp only
  by_cases hL : R.val v.length = 0
  · right
    rw [if_pos (by rw [R.eqb, hL, hz]; simp)]
    rw [hL] at l1
    have hQ : R.val v.x ^ 2 + R.val v.y ^ 2 + R.val v.z ^ 2 ≤ 0 := by
      by_contra hc
      have := mul_pos (pow_pos w 5) (not_le.1 hc)
      linarith
    have q1 := sq_nonneg (R.val v.x)
    have q2 := sq_nonneg (R.val v.y)
    have q3 := sq_nonneg (R.val v.z)
    exact ⟨pow_eq_zero_iff two_ne_zero |>.1 (by linarith), pow_eq_zero_iff two_ne_zero |>.1 (by linarith),
      pow_eq_zero_iff two_ne_zero |>.1 (by linarith)⟩
  · left
    rw [if_neg (by rw [R.eqb, hz]; simpa using hL)]
    unfold roundedLength
    dsimp only
    obtain ⟨a1, a2⟩ := (R.div v.x v.length hL).sq (by linarith)
    obtain ⟨b1, b2⟩ := (R.div v.y v.length hL).sq (by linarith)
    obtain ⟨c1, c2⟩ := (R.div v.z v.length hL).sq (by linarith)
    set n := R.val (v.x / v.length) ^ 2 + R.val (v.y / v.length) ^ 2 + R.val (v.z / v.length) ^ 2 with hn
    have hn0 : 0 ≤ n := by positivity
    have hL2 : 0 < R.val v.length ^ 2 := by positivity
    set Q := R.val v.x ^ 2 + R.val v.y ^ 2 + R.val v.z ^ 2 with hQ
    have hQp : 0 < Q := by
      by_contra hc
      have : (1 + u) ^ 5 * Q ≤ 0 := mul_nonpos_of_nonneg_of_nonpos (by positivity) (not_lt.1 hc)
      linarith
    have e : (R.val v.x / R.val v.length) ^ 2 + (R.val v.y / R.val v.length) ^ 2 + (R.val v.z / R.val v.length) ^ 2 = Q / R.val v.length ^ 2 := by
      rw [hQ]; field_simp
    have n1 : (1 - u) ^ 2 * (Q / R.val v.length ^ 2) ≤ n := by rw [← e, mul_add, mul_add]; linarith
    have n2 : n ≤ (1 + u) ^ 2 * (Q / R.val v.length ^ 2) := by rw [← e, mul_add, mul_add]; linarith
    rw [← mul_div_assoc, div_le_iff₀ hL2] at n1
    rw [← mul_div_assoc, le_div_iff₀ hL2] at n2
    have m1 : (1 - u) ^ 2 ≤ n * (1 + u) ^ 5 := by
      have := n1.trans (mul_le_mul_of_nonneg_left l2 hn0)
      rw [← mul_assoc] at this
      exact le_of_mul_le_mul_right this hQp
    have m2 : n * (1 - u) ^ 5 ≤ (1 + u) ^ 2 := by
      have := (mul_le_mul_of_nonneg_left l1 hn0).trans n2
      rw [← mul_assoc] at this
      exact le_of_mul_le_mul_right this hQp
    have p1 := upper_bound h0 hu
    have p2 := lower_bound h0 hu
    have r1 : n ≤ (1 + 4 * u) ^ 2 := le_of_mul_le_mul_right (m2.trans p1) (by positivity)
    have r2 : (1 - 4 * u) ^ 2 ≤ n := le_of_mul_le_mul_right (p2.trans m1) (by positivity)
    rw [abs_le]
    constructor
    · have : 1 - 4 * u ≤ Real.sqrt n := Real.le_sqrt_of_sq_le r2
      linarith
    · have : Real.sqrt n ≤ 1 + 4 * u := Real.sqrt_le_iff.2 ⟨by linarith, r1⟩
      linarith

end CVec

namespace Junction
open Layer
variable {T : Type} [Scalar T] {u : ℝ}

/-- C117. Whatever the solver, the noise and the fields: after every step the magnetisations have length one up to four
rounding errors or are zero. -/
theorem C117_step (R : Rounding T u) (hu : u ≤ 1 / 30) {j k : Junction T} {r : Runner} {t dt : T}
    (h : j.runStep r t dt = .ok () k) (h1 : r = .single → j.layers.length = 1) :
    ∀ l ∈ k.layers, |roundedLength R l.mag - 1| ≤ 4 * u ∨ (R.val l.mag.x = 0 ∧ R.val l.mag.y = 0 ∧ R.val l.mag.z = 0) := by
  intro l hl
  obtain ⟨v, hv⟩ := step_normalised h h1 l hl
  rw [hv]
  exact CVec.C117_normalize R hu v

/-- C117 for runs: rounding errors of the length do not add up over the steps. -/
theorem C117_run (R : Rounding T u) (hu : u ≤ 1 / 30) {j k : Junction T} {total dt wf : T} {en : Bool} {mode : SolverMode}
    (h : j.runSimulation total dt wf en mode = .ok () k) (h0 : 1 ≤ R.val (total / dt)) :
    ∀ l ∈ k.layers, |roundedLength R l.mag - 1| ≤ 4 * u ∨ (R.val l.mag.x = 0 ∧ R.val l.mag.y = 0 ∧ R.val l.mag.z = 0) := by
  have hne : Scalar.toUInt (total / dt) ≠ some 0 := fun e => by
    rw [R.toUInt] at e
    change (if _ then _ else _) = _ at e
    split at e
    · simp only [Option.some.injEq, Int.toNat_eq_zero] at e
      unfold Scalar.truncR at e
      rw [if_pos (by linarith)] at e
      have : (1 : ℤ) ≤ ⌊R.val (total / dt)⌋ := Int.le_floor.2 (by exact_mod_cast h0)
      omega
    · cases e
  intro l hl
  obtain ⟨v, hv⟩ := run_normalised h hne l hl
  rw [hv]
  exact CVec.C117_normalize R hu v

/-- C118, partial. The full statement is that a run makes exactly `⌊total / dt⌋` steps for the numbers the caller writes. In
rounded arithmetic this holds up to the rounding error of the quotient. What is missing is refuted by
`C118_double_refuted`. -/
theorem C118_run_partial (R : Rounding T u) {j k : Junction T} (hr : Reachable j) (hd : DistinctIds j) {total dt wf : T} {en : Bool}
    {mode : SolverMode} (h : j.runSimulation total dt wf en mode = .ok () k) (hdt : 0 < R.val dt) (ht : 0 ≤ R.val total) (hu : u < 1) :
    ∃ N r m j1, j.getSolver mode N = .ok (r, m) j1 ∧ k.layers = (steps r dt 0 N j1).st.layers ∧
      (N : ℝ) ≤ (1 + u) * (R.val total / R.val dt) ∧ (1 - u) * (R.val total / R.val dt) < N + 1 := by
  obtain ⟨N, W, r, m, j1, hN, -, hg, -, -, hlay, -⟩ := C27_run hr hd h
  refine ⟨N, r, m, j1, hg, hlay, ?_⟩
  have hq : 0 ≤ R.val total / R.val dt := div_nonneg ht hdt.le
  obtain ⟨q1, q2⟩ := (R.div total dt hdt.ne').le hq
  rw [R.toUInt] at hN
  have h0 : 0 ≤ R.val (total / dt) := (mul_nonneg (by linarith) hq).trans q1
  change (if _ then _ else _) = _ at hN
  split at hN
  · unfold Scalar.truncR at hN
    rw [if_pos h0, Option.some.injEq] at hN
    rw [← hN, Int.floor_toNat]
    exact ⟨(Nat.floor_le h0).trans q2, q1.trans_lt (Nat.lt_floor_add_one _)⟩
  · cases hN

end Junction

/-! ### Thirty nanoseconds in steps of one picosecond -/

/-- rounding with known exponent -/
theorem fl_eq {p : ℕ} {x : ℝ} {L m : ℤ} (h1 : (2 : ℝ) ^ L ≤ x) (h2 : x < (2 : ℝ) ^ (L + 1))
    (h3 : |x / (2 : ℝ) ^ (L - p + 1) - m| < 1 / 2) : fl p x = m * (2 : ℝ) ^ (L - p + 1) := by
  have hx : 0 < x := lt_of_lt_of_le (by positivity) h1
  have hL : Int.log 2 |x| = L := by
    rw [abs_of_pos hx]
    have a : L ≤ Int.log 2 x := (Int.zpow_le_iff_le_log (b := 2) (by norm_num) hx).1 (by exact_mod_cast h1)
    have b : Int.log 2 x < L + 1 := (Int.lt_zpow_iff_log_lt (b := 2) (by norm_num) hx).1 (by exact_mod_cast h2)
    omega
  unfold fl spacing
  rw [hL]
  congr 2
  have h4 := abs_lt.1 h3
  rw [round_eq, Int.floor_eq_iff]
  constructor <;> linarith [h4.1, h4.2]

/-- 30e-9 in double precision -/
theorem fl_total : fl 53 (30 / 10 ^ 9) = 4533471823554859 / 2 ^ 77 := by
  rw [fl_eq (L := -25) (m := 4533471823554859)]
  · norm_num
  · norm_num
  · norm_num
  · norm_num [abs_lt]

/-- 1e-12 in double precision -/
theorem fl_step : fl 53 (1 / 10 ^ 12) = 4951760157141521 / 2 ^ 92 := by
  rw [fl_eq (L := -40) (m := 4951760157141521)]
  · norm_num
  · norm_num
  · norm_num
  · norm_num [abs_lt]

theorem fl_quotient : fl 53 (4533471823554859 / 2 ^ 77 / (4951760157141521 / 2 ^ 92)) = 8246337208319999 / 2 ^ 38 := by
  rw [fl_eq (L := 14) (m := 8246337208319999)]
  · norm_num
  · norm_num
  · norm_num
  · norm_num [abs_lt]

namespace Junction
open Layer

/-- the arguments of the call in double precision -/
theorem total_val : (30e-9 : Fl 53).val = 4533471823554859 / 2 ^ 77 := by
  show fl 53 (((30e-9 : ℚ) : ℝ)) = _
  rw [← fl_total]; congr 1; norm_num

theorem step_val : (1e-12 : Fl 53).val = 4951760157141521 / 2 ^ 92 := by
  show fl 53 (((1e-12 : ℚ) : ℝ)) = _
  rw [← fl_step]; congr 1; norm_num

theorem quotient_val : ((30e-9 : Fl 53) / (1e-12 : Fl 53)).val = 8246337208319999 / 2 ^ 38 := by
  show fl 53 ((30e-9 : Fl 53).val / (1e-12 : Fl 53).val) = _
  rw [total_val, step_val, fl_quotient]

theorem quotient_steps : Scalar.toUInt ((30e-9 : Fl 53) / (1e-12 : Fl 53)) = some 29999 := by
  show Scalar.toUInt ((30e-9 : Fl 53) / (1e-12 : Fl 53)).val = _
  rw [quotient_val, toUInt_floor _ (by norm_num) (by norm_num), Option.some.injEq, Nat.floor_eq_iff (by norm_num)]
  norm_num

theorem one_val : (1 : Fl 53).val = 1 := by
  show fl 53 (((1 : ℕ) : ℚ) : ℝ) = 1
  rw [fl_of_digits (by norm_num) ⟨1, 0, by norm_num, by norm_num⟩]
  norm_num

theorem unit_quotient : Scalar.toUInt ((1e-12 : Fl 53) / (1e-12 : Fl 53)) = some 1 := by
  have e : ((1e-12 : Fl 53) / (1e-12 : Fl 53)).val = 1 := by
    show fl 53 ((1e-12 : Fl 53).val / (1e-12 : Fl 53).val) = 1
    rw [step_val, div_self (by norm_num), fl_of_digits (by norm_num) ⟨1, 0, by norm_num, by norm_num⟩]
  show Scalar.toUInt ((1e-12 : Fl 53) / (1e-12 : Fl 53)).val = _
  rw [e, toUInt_floor _ (by norm_num) (by norm_num)]
  simp

/-- C118. In double precision every run of 30e-9 in steps of 1e-12 ends one step early, after 29999 steps. -/
theorem C118_double {j k : Junction (Fl 53)} (hr : Reachable j) (hd : DistinctIds j) {en : Bool} {mode : SolverMode}
    (h : j.runSimulation 30e-9 1e-12 1e-12 en mode = .ok () k) :
    k.logLength = j.logLength + 29999 ∧ (k.log.col "time").length = (j.log.col "time").length + 29999 := by
  obtain ⟨N, W, r, m, j1, hN, hW, -, -, -, -, hlen, ht, -⟩ := C27_run hr hd h
  rw [quotient_steps] at hN
  rw [unit_quotient] at hW
  cases hN; cases hW
  have e : (sampleSteps 29999 1).length = 29999 := (C27_count 29999 1 (by norm_num)).2
  rw [hlen, ht, List.length_append, List.length_map, e]
  exact ⟨rfl, rfl⟩

/-- C118: the number of steps is not the quotient of the arguments. There is a run in double precision of thirty thousand
steps' time that has only 29999 rows. -/
theorem C118_double_refuted : ∃ (j k : Junction (Fl 53)), Reachable j ∧ DistinctIds j ∧ j.log.col "time" = [] ∧
    j.runSimulation 30e-9 1e-12 1e-12 false .RK4 = .ok () k ∧ (k.log.col "time").length = 29999 ∧ (30e-9 / 1e-12 : ℚ) = 30000 := by
  have hu : ((1 / 2 : ℝ) ^ 53) ≤ 1 / 30 := by norm_num
  have hm : Scalar.eqb (⟨0, 0, 1⟩ : CVec (Fl 53)).length 0 = false := by
    have h := (CVec.length_rounded (Fl.rounding 53) hu ⟨0, 0, 1⟩).1
    rw [(Fl.rounding 53).eqb, show (Fl.rounding 53).val 0 = 0 from (Fl.rounding 53).zero]
    have e : (Fl.rounding 53).val (1 : Fl 53) = 1 := one_val
    rw [e] at h
    have : (Fl.rounding 53).val (CVec.length (⟨0, 0, 1⟩ : CVec (Fl 53))) ≠ 0 := by
      intro hc
      rw [hc] at h
      have h2 := sq_nonneg ((Fl.rounding 53).val (0 : Fl 53))
      have : 0 < (1 - (1 / 2 : ℝ) ^ 53) ^ 5 := by norm_num
      nlinarith
    simpa [Scalar.eqb_real] using this
  obtain ⟨l, hl⟩ : ∃ l, Layer.plain "free" ⟨0, 0, 1⟩ ⟨0, 0, 1⟩ (1 : Fl 53) 1 1 .zero 1 (fun _ => 0) (fun _ _ _ _ => 0) = .ok l := by
    unfold Layer.plain Layer.mk'
    rw [if_neg (by rw [hm]; decide), if_neg (by rw [hm]; decide)]
    exact ⟨_, rfl⟩
  have hl2 : l.Guard ∧ ¬ Noisy l := by
    unfold Layer.plain Layer.mk' at hl
    rw [if_neg (by rw [hm]; decide), if_neg (by rw [hm]; decide)] at hl
    cases hl
    constructor
    · show decide (fl 53 ((1 : Fl 53).val * (1 : Fl 53).val) = fl 53 (((0 : ℕ) : ℚ) : ℝ)) = false
      rw [one_val, mul_one, fl_of_digits (by norm_num) ⟨1, 0, by norm_num, by norm_num⟩]
      simp [fl_zero]
    · simp [Noisy]
      show decide (_ = _) = true
      simp
  obtain ⟨j, hj⟩ : ∃ j, Junction.plain [l] = .ok j := ⟨_, rfl⟩
  have hlay : j.layers = [l] ∧ j.log = [] := by
    unfold Junction.plain at hj
    rw [if_neg (by simp)] at hj
    cases hj; exact ⟨rfl, rfl⟩
  have hr : Reachable j := ⟨j, [], .inl ⟨[l], hj⟩, rfl⟩
  have hd : DistinctIds j := by simp [DistinctIds, hlay.1]
  have hle : Scalar.ltb (1e-12 : Fl 53) 1e-12 = false := by
    show decide (_ < _) = false
    simp
  obtain ⟨k, hk⟩ := C27_completes_any (fun x : Fl 53 => by show (!(decide (x.val = x.val))) = false; simp) j hr (by simp [hlay.1, hl2.1])
    (by simp [hlay.1, hl2.2]) 30e-9 1e-12 1e-12 false .RK4 hle quotient_steps unit_quotient (by norm_num)
  have h0 : j.log.col "time" = [] := by rw [hlay.2]; rfl
  refine ⟨j, k, hr, hd, h0, hk, ?_, by norm_num⟩
  rw [(C118_double hr hd hk).2, h0]; rfl

end Junction

/-- The hypotheses of C117 and C118 hold in double precision for a run of 29999 steps. -/
example : ∃ (j k : Junction (Fl 53)) (total dt wf : Fl 53), j.runSimulation total dt wf false .RK4 = .ok () k ∧
    ((1 / 2 : ℝ) ^ 53) ≤ 1 / 30 ∧ 1 ≤ (Fl.rounding 53).val (total / dt) ∧ 0 < (Fl.rounding 53).val dt ∧ 0 ≤ (Fl.rounding 53).val total := by
  obtain ⟨j, k, -, -, -, h, -⟩ := Junction.C118_double_refuted
  refine ⟨j, k, _, _, _, h, by norm_num, ?_, ?_, ?_⟩
  · show 1 ≤ ((30e-9 : Fl 53) / (1e-12 : Fl 53)).val
    rw [Junction.quotient_val]; norm_num
  · show 0 < (1e-12 : Fl 53).val
    rw [Junction.step_val]; norm_num
  · show 0 ≤ (30e-9 : Fl 53).val
    rw [Junction.total_val]; norm_num
