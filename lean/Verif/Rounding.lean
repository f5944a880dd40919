import Verif.Scalar
import Mathlib.Data.Int.Log
import Mathlib.Algebra.Order.Round

/-!
# Rounded arithmetic

`Rounding T u` says that the scalars `T` stand for real numbers and that every operation returns the exact result up to a
relative error `u`: the standard model of floating point arithmetic without overflow and underflow. Comparisons, signs and
conversions to integers are exact.

`Fl p` is such an arithmetic with `u = 2⁻ᵖ`: binary numbers of `p` digits with unbounded exponent, every operation
rounded to nearest. `Fl 53` is the arithmetic of `double` within its range.
-/

/-- `x` is within the relative error `u` of the exact value `y`. -/
def Close (u x y : ℝ) : Prop := |x - y| ≤ u * |y|

/-- The standard model of floating point arithmetic. -/
structure Rounding (T : Type) [Scalar T] (u : ℝ) where
  val : T → ℝ
  nonneg : 0 ≤ u
  lit : ∀ q : ℚ, Close u (val (Scalar.lit q)) q
  zero : val (Scalar.lit 0) = 0
  pi : Close u (val Scalar.pi) Real.pi
  add : ∀ a b, Close u (val (a + b)) (val a + val b)
  sub : ∀ a b, Close u (val (a - b)) (val a - val b)
  mul : ∀ a b, Close u (val (a * b)) (val a * val b)
  div : ∀ a b, val b ≠ 0 → Close u (val (a / b)) (val a / val b)
  neg : ∀ a, val (-a) = -val a
  abs : ∀ a, val (Scalar.abs a) = |val a|
  powi : ∀ a n, Close u (val (Scalar.powi a n)) (val a ^ n)
  sqrt : ∀ a, 0 ≤ val a → Close u (val (Scalar.sqrt a)) (Real.sqrt (val a))
  sin : ∀ a, Close u (val (Scalar.sin a)) (Real.sin (val a))
  cos : ∀ a, Close u (val (Scalar.cos a)) (Real.cos (val a))
  exp : ∀ a, Close u (val (Scalar.exp a)) (Real.exp (val a))
  ltb : ∀ a b, Scalar.ltb a b = Scalar.ltb (val a) (val b)
  leb : ∀ a b, Scalar.leb a b = Scalar.leb (val a) (val b)
  eqb : ∀ a b, Scalar.eqb a b = Scalar.eqb (val a) (val b)
  toInt : ∀ a, Scalar.toInt a = Scalar.toInt (val a)
  toUInt : ∀ a, Scalar.toUInt a = Scalar.toUInt (val a)

/-! ### Binary numbers of `p` digits -/

/-- Distance of neighbouring numbers of `p` binary digits around `x`. -/
noncomputable def spacing (p : ℕ) (x : ℝ) : ℝ := (2 : ℝ) ^ (Int.log 2 |x| - p + 1)

/-- Rounding to the nearest number of `p` binary digits. -/
noncomputable def fl (p : ℕ) (x : ℝ) : ℝ := round (x / spacing p x) * spacing p x

theorem spacing_pos (p : ℕ) (x : ℝ) : 0 < spacing p x := by unfold spacing; positivity

theorem fl_zero (p : ℕ) : fl p 0 = 0 := by simp [fl]

/-- Rounding to nearest has the relative error `2⁻ᵖ`. -/
theorem fl_close (p : ℕ) (x : ℝ) : Close ((1 / 2) ^ p) (fl p x) x := by
  unfold Close
  by_cases hx : x = 0
  · rw [hx, fl_zero]; simp
  have hs := spacing_pos p x
  have h1 : |fl p x - x| ≤ spacing p x / 2 := by
    have e : fl p x - x = (round (x / spacing p x) - x / spacing p x) * spacing p x := by
      unfold fl; field_simp
    rw [e, abs_mul, abs_of_pos hs, abs_sub_comm]
    have := abs_sub_round (x / spacing p x)
    nlinarith
  refine h1.trans ?_
  have h2 : (2 : ℝ) ^ (Int.log 2 |x|) ≤ |x| := by
    have := Int.zpow_log_le_self (b := 2) (r := |x|) (by norm_num) (abs_pos.2 hx)
    simpa using this
  have h3 : spacing p x / 2 = (1 / 2) ^ p * (2 : ℝ) ^ (Int.log 2 |x|) := by
    unfold spacing
    rw [zpow_add₀ (by norm_num), zpow_sub₀ (by norm_num), zpow_natCast, zpow_one, one_div, inv_pow]
    field_simp
  rw [h3]
  exact mul_le_mul_of_nonneg_left h2 (by positivity)

/-- Numbers of `p` binary digits. -/
def Digits (p : ℕ) (x : ℝ) : Prop := ∃ m e : ℤ, |m| ≤ 2 ^ p ∧ x = m * (2 : ℝ) ^ e

theorem fl_digits (p : ℕ) (x : ℝ) : Digits p (fl p x) := by
  refine ⟨round (x / spacing p x), Int.log 2 |x| - p + 1, ?_, rfl⟩
  have hs := spacing_pos p x
  by_cases hx : x = 0
  · simp [hx]
  have h1 : |x| < (2 : ℝ) ^ (Int.log 2 |x| + 1) := by
    have := Int.lt_zpow_succ_log_self (b := 2) (by norm_num) |x|
    simpa using this
  have h2 : |x / spacing p x| < 2 ^ p := by
    rw [abs_div, abs_of_pos hs, div_lt_iff₀ hs]
    refine h1.trans_eq ?_
    unfold spacing
    rw [← zpow_natCast, ← zpow_add₀ (by norm_num)]
    congr 1; ring
  have h3 := abs_lt.1 h2
  have h4 := abs_le.1 (abs_sub_round (x / spacing p x))
  rw [abs_le]
  constructor
  · have : ((-(2 ^ p) - 1 : ℤ) : ℝ) < (round (x / spacing p x) : ℤ) := by push_cast; linarith [h3.1, h4.2]
    have := Int.cast_lt.1 this
    omega
  · have : ((round (x / spacing p x) : ℤ) : ℝ) < ((2 ^ p + 1 : ℤ) : ℝ) := by push_cast; linarith [h3.2, h4.1]
    have := Int.cast_lt.1 this
    omega

/-- Rounding leaves a number alone that already has at most `p` digits. -/
theorem fl_of_digits {p : ℕ} (hp : 1 ≤ p) {x : ℝ} (h : Digits p x) : fl p x = x := by
  by_cases hx : x = 0
  · rw [hx, fl_zero]
  obtain ⟨m, e, hm, rfl⟩ := h
  set x := (m : ℝ) * 2 ^ e with hxe
  have hs := spacing_pos p x
  suffices ∃ k : ℤ, x / spacing p x = k by
    obtain ⟨k, hk⟩ := this
    unfold fl
    rw [hk, round_intCast, ← hk]
    field_simp
  have h2 : (2 : ℝ) ^ (Int.log 2 |x|) ≤ |x| := by
    have := Int.zpow_log_le_self (b := 2) (r := |x|) (by norm_num) (abs_pos.2 hx)
    simpa using this
  have hm' : |(m : ℝ)| ≤ 2 ^ p := by exact_mod_cast hm
  have hxa : |x| = |(m : ℝ)| * 2 ^ e := by rw [hxe, abs_mul, abs_of_pos (show (0 : ℝ) < 2 ^ e by positivity)]
  by_cases he : Int.log 2 |x| - p + 1 ≤ e
  · obtain ⟨d, hd⟩ := Int.eq_ofNat_of_zero_le (sub_nonneg.2 he)
    refine ⟨m * 2 ^ d, ?_⟩
    push_cast
    rw [div_eq_iff hs.ne', hxe, mul_assoc]
    congr 1
    unfold spacing
    rw [← zpow_natCast (2 : ℝ) d, ← zpow_add₀ (by norm_num), ← hxe]
    congr 1
    have : (d : ℤ) = e - (Int.log 2 |x| - p + 1) := hd.symm
    omega
  · have he' : (p : ℤ) + e ≤ Int.log 2 |x| := by omega
    have h3 : |x| ≤ (2 : ℝ) ^ (Int.log 2 |x|) := by
      refine (hxa.le.trans (mul_le_mul_of_nonneg_right hm' (by positivity))).trans ?_
      rw [← zpow_natCast (2 : ℝ) p, ← zpow_add₀ (by norm_num)]
      exact zpow_le_zpow_right₀ (by norm_num) he'
    have h4 : |x| = (2 : ℝ) ^ (Int.log 2 |x|) := le_antisymm h3 h2
    have h5 : |x| / spacing p x = ((2 ^ (p - 1) : ℤ) : ℝ) := by
      rw [div_eq_iff hs.ne']
      unfold spacing
      push_cast
      rw [← zpow_natCast (2 : ℝ) (p - 1), ← zpow_add₀ (by norm_num)]
      refine h4.trans ?_
      congr 1
      have : ((p - 1 : ℕ) : ℤ) = p - 1 := by omega
      omega
    rcases abs_choice x with h | h
    · rw [h] at h5; exact ⟨_, h5⟩
    · rw [h, neg_div] at h5
      exact ⟨-(2 ^ (p - 1)), by push_cast at h5 ⊢; linarith⟩

/-- Binary floating point numbers of `p` digits. -/
structure Fl (p : ℕ) where
  val : ℝ
  digits : Digits p val

namespace Fl
variable {p : ℕ}

/-- The number nearest to `x`. -/
noncomputable def of (p : ℕ) (x : ℝ) : Fl p := ⟨fl p x, fl_digits p x⟩

theorem digits_neg {x : ℝ} (h : Digits p x) : Digits p (-x) := by
  obtain ⟨m, e, hm, rfl⟩ := h
  exact ⟨-m, e, by rwa [abs_neg], by push_cast; ring⟩

theorem digits_abs {x : ℝ} (h : Digits p x) : Digits p |x| := by
  obtain ⟨m, e, hm, rfl⟩ := h
  exact ⟨|m|, e, by rwa [abs_abs], by rw [abs_mul, abs_of_pos (show (0 : ℝ) < 2 ^ e by positivity)]; push_cast; rfl⟩

/-- Every operation is the exact one, rounded to nearest. -/
noncomputable instance : Scalar (Fl p) where
  add a b := of p (a.val + b.val)
  sub a b := of p (a.val - b.val)
  mul a b := of p (a.val * b.val)
  div a b := of p (a.val / b.val)
  neg a := ⟨-a.val, digits_neg a.digits⟩
  lit q := of p q
  ltb a b := Scalar.ltb a.val b.val
  leb a b := Scalar.leb a.val b.val
  eqb a b := Scalar.eqb a.val b.val
  powi a n := of p (a.val ^ n)
  rpow a b := of p (Scalar.rpow a.val b.val)
  sqrt a := of p (Real.sqrt a.val)
  sin a := of p (Real.sin a.val)
  cos a := of p (Real.cos a.val)
  tan a := of p (Real.tan a.val)
  acos a := of p (Real.arccos a.val)
  atan2 a b := of p (Scalar.atan2 a.val b.val)
  exp a := of p (Real.exp a.val)
  tanh a := of p (Real.tanh a.val)
  cosh a := of p (Real.cosh a.val)
  sinh a := of p (Real.sinh a.val)
  log a := of p (Real.log a.val)
  erf a := of p (Scalar.erf a.val)
  abs a := ⟨|a.val|, digits_abs a.digits⟩
  pi := of p Real.pi
  toInt a := Scalar.toInt a.val
  toUInt a := Scalar.toUInt a.val

/-- Rounding to nearest satisfies the standard model. -/
noncomputable def rounding (p : ℕ) : Rounding (Fl p) ((1 / 2) ^ p) where
  val := Fl.val
  nonneg := by positivity
  lit q := fl_close p _
  zero := by show fl p ((0 : ℚ) : ℝ) = 0; rw [Rat.cast_zero, fl_zero]
  pi := fl_close p _
  add _ _ := fl_close p _
  sub _ _ := fl_close p _
  mul _ _ := fl_close p _
  div _ _ _ := fl_close p _
  neg _ := rfl
  abs _ := rfl
  powi _ _ := fl_close p _
  sqrt _ _ := fl_close p _
  sin _ := fl_close p _
  cos _ := fl_close p _
  exp _ := fl_close p _
  ltb _ _ := rfl
  leb _ _ := rfl
  eqb _ _ := rfl
  toInt _ := rfl
  toUInt _ := rfl

end Fl
