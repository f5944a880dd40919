import Verif.Model.PyVector
import Verif.Spec.PyVector

set_option linter.unusedSectionVars false

/-!
C48: conversions of `VectorObj`. C49: field scans.
-/

open Spec

namespace VectorObj

/-- helper -/
theorem arg_polar {r φ : ℝ} (hr : 0 < r) (h : φ ∈ Set.Ioc (-Real.pi) Real.pi) :
    Complex.arg ⟨r * Real.cos φ, r * Real.sin φ⟩ = φ := by
  have := Complex.arg_mul_cos_add_sin_mul_I hr h
  refine Eq.trans ?_ this
  congr 1
  apply Complex.ext <;> simp [Complex.cos_ofReal_re, Complex.sin_ofReal_re]

/-- helper -/
theorem polar_arg (x y : ℝ) : Real.sqrt (x ^ 2 + y ^ 2) * Real.cos (Complex.arg ⟨x, y⟩) = x ∧
    Real.sqrt (x ^ 2 + y ^ 2) * Real.sin (Complex.arg ⟨x, y⟩) = y := by
  have hn : ‖(⟨x, y⟩ : ℂ)‖ = Real.sqrt (x ^ 2 + y ^ 2) := Complex.norm_eq_sqrt_sq_add_sq _
  rw [← hn]
  exact ⟨Complex.norm_mul_cos_arg _, Complex.norm_mul_sin_arg _⟩

/-- helper -/
theorem fromCVector_eq (v : CVec ℝ) : fromCVector v = fromCartesian v.x v.y v.z := rfl

/-- C48: converting to spherical and back gives the vector, for every vector. -/
theorem C48_cartesian (x y z : ℝ) : (fromCartesian x y z).getCartesian = ⟨x, y, z⟩ := by
  unfold fromCartesian getCartesian fromSpherical
  simp only [Scalar.sqrt_real, Scalar.powi_real, Scalar.eqb_real, Scalar.acos_real, Scalar.atan2_real, Scalar.sin_real, Scalar.cos_real]
  by_cases h0 : Real.sqrt (x ^ 2 + y ^ 2 + z ^ 2) = 0
  · have hs : x ^ 2 + y ^ 2 + z ^ 2 = 0 := by
      have := Real.sqrt_eq_zero'.1 h0
      nlinarith [sq_nonneg x, sq_nonneg y, sq_nonneg z]
    have hx : x = 0 := by nlinarith [sq_nonneg x, sq_nonneg y, sq_nonneg z]
    have hy : y = 0 := by nlinarith [sq_nonneg x, sq_nonneg y, sq_nonneg z]
    have hz : z = 0 := by nlinarith [sq_nonneg x, sq_nonneg y, sq_nonneg z]
    subst hx hy hz
    simp
  · have hpos : 0 < Real.sqrt (x ^ 2 + y ^ 2 + z ^ 2) := lt_of_le_of_ne (Real.sqrt_nonneg _) (Ne.symm h0)
    set m := Real.sqrt (x ^ 2 + y ^ 2 + z ^ 2) with hm
    have hmsq : m ^ 2 = x ^ 2 + y ^ 2 + z ^ 2 := Real.sq_sqrt (by positivity)
    rw [if_neg (by simpa using h0)]
    simp only
    have hz1 : z / m ≤ 1 := by rw [div_le_one hpos]; nlinarith [sq_nonneg x, sq_nonneg y]
    have hz2 : -1 ≤ z / m := by rw [le_div_iff₀ hpos]; nlinarith [sq_nonneg x, sq_nonneg y]
    have hsin : m * Real.sin (Real.arccos (z / m)) = Real.sqrt (x ^ 2 + y ^ 2) := by
      rw [Real.sin_arccos, show x ^ 2 + y ^ 2 = m ^ 2 * (1 - (z / m) ^ 2) by field_simp; linarith,
        Real.sqrt_mul (by positivity), Real.sqrt_sq hpos.le]
    rw [hsin, Real.cos_arccos hz2 hz1, (polar_arg x y).1, (polar_arg x y).2, mul_div_cancel₀ _ hpos.ne']

/-- C48: the same for the conversion from and to the library's own vectors. -/
theorem C48_cvector (v : CVec ℝ) : (fromCVector v).toCVector = v := by
  rw [fromCVector_eq]
  exact C48_cartesian v.x v.y v.z

/-- C48: two vectors compare equal exactly when the two angles and the magnitude agree. -/
theorem C48_equal (a b : VectorObj ℝ) : a.eqb b = true ↔ a.theta = b.theta ∧ a.phi = b.phi ∧ a.mag = b.mag := by
  simp only [eqb, Bool.and_eq_true, Scalar.eqb_real, decide_eq_true_eq]
  tauto

/-- C48: converting to Cartesian and back gives the angles and the magnitude, for a positive magnitude, a polar angle in
[0, π] and an azimuth in (-π, π]; on the polar axis the azimuth comes back as 0. -/
theorem C48_spherical (v : VectorObj ℝ) (hm : 0 < v.mag) (h0 : 0 ≤ v.theta) (h1 : v.theta ≤ Real.pi)
    (h2 : -Real.pi < v.phi) (h3 : v.phi ≤ Real.pi) :
    (0 < v.theta → v.theta < Real.pi → fromCVector v.toCVector = v) ∧
    (v.theta = 0 ∨ v.theta = Real.pi → fromCVector v.toCVector = ⟨v.theta, 0, v.mag⟩) := by
  obtain ⟨θ, φ, m⟩ := v
  simp only at hm h0 h1 h2 h3 ⊢
  have hlen : Real.sqrt ((m * Real.sin θ * Real.cos φ) ^ 2 + (m * Real.sin θ * Real.sin φ) ^ 2 + (m * Real.cos θ) ^ 2) = m := by
    rw [show (m * Real.sin θ * Real.cos φ) ^ 2 + (m * Real.sin θ * Real.sin φ) ^ 2 + (m * Real.cos θ) ^ 2 =
      m ^ 2 * (Real.sin θ ^ 2 * (Real.cos φ ^ 2 + Real.sin φ ^ 2) + Real.cos θ ^ 2) by ring, Real.cos_sq_add_sin_sq, mul_one,
      Real.sin_sq_add_cos_sq, mul_one, Real.sqrt_sq hm.le]
  have key : fromCVector (toCVector ⟨θ, φ, m⟩) = ⟨θ, Complex.arg ⟨m * Real.sin θ * Real.cos φ, m * Real.sin θ * Real.sin φ⟩, m⟩ := by
    rw [fromCVector_eq]
    unfold fromCartesian toCVector getCartesian fromSpherical
    simp only [Scalar.sqrt_real, Scalar.powi_real, Scalar.eqb_real, Scalar.acos_real, Scalar.atan2_real, Scalar.sin_real,
      Scalar.cos_real]
    rw [hlen, if_neg (by simpa using hm.ne'), mul_comm m (Real.cos θ), mul_div_assoc, div_self hm.ne', mul_one,
      Real.arccos_cos h0 h1]
  rw [key]
  constructor
  · intro a b
    rw [arg_polar (mul_pos hm (Real.sin_pos_of_pos_of_lt_pi a b)) ⟨h2, h3⟩]
  · intro h
    have hs : Real.sin θ = 0 := by rcases h with h | h <;> simp [h]
    simp only [hs, mul_zero, zero_mul, mk.injEq, true_and, and_true]
    exact Complex.arg_zero

/-- C48: the angles of a converted vector are in those ranges. -/
theorem C48_range (x y z : ℝ) : 0 ≤ (fromCartesian x y z).theta ∧ (fromCartesian x y z).theta ≤ Real.pi ∧
    -Real.pi < (fromCartesian x y z).phi ∧ (fromCartesian x y z).phi ≤ Real.pi ∧ 0 ≤ (fromCartesian x y z).mag := by
  unfold fromCartesian
  simp only [Scalar.sqrt_real, Scalar.powi_real, Scalar.eqb_real, Scalar.acos_real, Scalar.atan2_real]
  split
  · simp [Real.pi_pos, Real.pi_pos.le]
  · exact ⟨Real.arccos_nonneg _, Real.arccos_le_pi _, Complex.neg_pi_lt_arg _, Complex.arg_le_pi _, Real.sqrt_nonneg _⟩

/-- C48: the length of the Cartesian vector is the magnitude. -/
theorem C48_norm (v : VectorObj ℝ) : magnitude v.getCartesian = |v.mag| ∧ v.toCVector.length = |v.mag| := by
  have h : magnitude v.getCartesian = |v.mag| := by
    unfold magnitude getCartesian fromSpherical
    simp only [Scalar.sin_real, Scalar.cos_real]
    rw [← Real.sqrt_sq_eq_abs]
    congr 1
    have h1 := Real.sin_sq_add_cos_sq v.theta
    have h2 := Real.sin_sq_add_cos_sq v.phi
    linear_combination (v.mag ^ 2) * h1 + v.mag ^ 2 * Real.sin v.theta ^ 2 * h2
  exact ⟨h, by rw [← h]; rfl⟩

/-- C48: sum, multiple and componentwise product are those of the Cartesian vectors. -/
theorem C48_arith (a b : VectorObj ℝ) (s : ℝ) :
    (a.add b).getCartesian = ⟨a.getCartesian.x + b.getCartesian.x, a.getCartesian.y + b.getCartesian.y, a.getCartesian.z + b.getCartesian.z⟩ ∧
    (a.scale s).getCartesian = ⟨s * a.getCartesian.x, s * a.getCartesian.y, s * a.getCartesian.z⟩ ∧
    (a.mul b).getCartesian = ⟨a.getCartesian.x * b.getCartesian.x, a.getCartesian.y * b.getCartesian.y, a.getCartesian.z * b.getCartesian.z⟩ := by
  refine ⟨C48_cvector _, ?_, C48_cartesian _ _ _⟩
  rw [show (a.scale s).getCartesian = a.toCVector * s from C48_cvector _]
  show (⟨_, _, _⟩ : CVec ℝ) = _
  simp only [toCVector, CVec.mk.injEq]
  exact ⟨mul_comm _ _, mul_comm _ _, mul_comm _ _⟩

/-- A vector along +x meets the hypotheses of `C48_spherical`. -/
example : fromCVector (toCVector ⟨Real.pi / 2, Real.pi, 3⟩) = (⟨Real.pi / 2, Real.pi, 3⟩ : VectorObj ℝ) :=
  (C48_spherical ⟨Real.pi / 2, Real.pi, 3⟩ (by norm_num) (by positivity) (by simp only; linarith [Real.pi_pos])
    (by simp only; linarith [Real.pi_pos]) le_rfl).1 (by simp only; positivity) (by simp only; linarith [Real.pi_pos])

end VectorObj

namespace PyGeneral

/-- C48: the two Box-Muller values lie on the circle of radius `std * sqrt(-2 ln u1)` around the mean at the angle `2π u2`; a
draw of 0, which `uniform(0, 1)` can return, raises. -/
theorem C48_box_muller (mean std u1 u2 : ℝ) :
    (0 < u1 → u1 ≤ 1 → ∃ z0 z1, boxMuller mean std u1 u2 = .ok (z0, z1) ∧
      (z0 - mean) ^ 2 + (z1 - mean) ^ 2 = std ^ 2 * (-2 * Real.log u1) ∧
      (z0 - mean) * Real.sin (2 * Real.pi * u2) = (z1 - mean) * Real.cos (2 * Real.pi * u2)) ∧
    boxMuller mean std 0 u2 = .error .valueError := by
  constructor
  · intro h h1
    have hl := Real.log_nonpos h.le h1
    refine ⟨_, _, by unfold boxMuller; rw [if_neg (by simpa using h)], ?_, ?_⟩
    · simp only [Scalar.sqrt_real, Scalar.cos_real, Scalar.sin_real, Scalar.log_real, Scalar.pi_real, add_sub_cancel_right]
      simp only [Scalar.ofSci_real_true, Scalar.ofNat_real]
      norm_num only
      have hq : Real.sqrt (-2 * Real.log u1) ^ 2 = -2 * Real.log u1 := Real.sq_sqrt (by linarith)
      have ht := Real.sin_sq_add_cos_sq (2 * Real.pi * u2)
      linear_combination std ^ 2 * hq + std ^ 2 * Real.sqrt (-2 * Real.log u1) ^ 2 * ht
    · simp only [Scalar.cos_real, Scalar.sin_real, Scalar.pi_real, add_sub_cancel_right]
      simp only [Scalar.ofNat_real]
      norm_num only
      ring
  · unfold boxMuller
    rw [if_pos (by simp)]

end PyGeneral

/-! ## C49 -/

namespace FieldScan
open PyGeneral VectorObj

/-- helper -/
theorem deg2rad_real (x : ℝ) : deg2rad x = x * Real.pi / 180 := by
  unfold deg2rad
  simp only [Scalar.pi_real, Scalar.ofNat_real]
  push_cast; ring

/-- helper -/
theorem rad2deg_real (x : ℝ) : rad2deg x = x * 180 / Real.pi := by
  unfold rad2deg
  simp only [Scalar.pi_real, Scalar.ofNat_real]
  push_cast; ring

/-- helper -/
theorem deg_rad (x : ℝ) : deg2rad (rad2deg x) = x := by
  rw [deg2rad_real, rad2deg_real]
  have := Real.pi_ne_zero
  field_simp

/-- helper -/
theorem rad_deg (x : ℝ) : rad2deg (deg2rad x) = x := by
  rw [deg2rad_real, rad2deg_real]
  have := Real.pi_ne_zero
  field_simp

/-- helper -/
theorem angle2vector_real (θ φ A : ℝ) : angle2vector θ φ A =
    ⟨A * (unitAt θ φ).x, A * (unitAt θ φ).y, A * (unitAt θ φ).z⟩ := by
  unfold angle2vector trigCompute unitAt
  simp only [deg2rad_real, Scalar.sin_real, Scalar.cos_real, CVec.mk.injEq]
  refine ⟨by ring, by ring, by ring⟩

/-- C49: the direction has length 1 -/
theorem C49_unit (θ φ : ℝ) : magnitude (unitAt θ φ) = 1 := by
  unfold magnitude unitAt
  rw [Real.sqrt_eq_one]
  have h1 := Real.sin_sq_add_cos_sq (θ * Real.pi / 180)
  have h2 := Real.sin_sq_add_cos_sq (φ * Real.pi / 180)
  linear_combination h1 + Real.sin (θ * Real.pi / 180) ^ 2 * h2

/-- helper -/
theorem magnitude_mul (A : ℝ) (u : CVec ℝ) : magnitude ⟨A * u.x, A * u.y, A * u.z⟩ = |A| * magnitude u := by
  unfold magnitude
  rw [← Real.sqrt_sq_eq_abs, ← Real.sqrt_mul (sq_nonneg A)]
  congr 1
  ring

/-- C49: the vector of two angles and an amplitude is the amplitude times the direction; its length is the amplitude. -/
theorem C49_vector (θ φ A : ℝ) : angle2vector θ φ A = ⟨A * (unitAt θ φ).x, A * (unitAt θ φ).y, A * (unitAt θ φ).z⟩ ∧
    magnitude (angle2vector θ φ A) = |A| := by
  refine ⟨angle2vector_real θ φ A, ?_⟩
  rw [angle2vector_real, magnitude_mul, C49_unit, mul_one]

/-- C49: angles to vector undoes vector to angles, for every vector; the amplitude found is the length and the angles are in
[0, 180] and (-180, 180]. -/
theorem C49_to_angles (v : CVec ℝ) : ∃ θ φ, cvector2angle v = (θ, φ, magnitude v) ∧ angle2vector θ φ (magnitude v) = v ∧
    0 ≤ θ ∧ θ ≤ 180 ∧ -180 < φ ∧ φ ≤ 180 := by
  refine ⟨_, _, rfl, ?_, ?_⟩
  · obtain ⟨x, y, z⟩ := v
    unfold angle2vector trigCompute magnitude
    simp only [deg_rad, Scalar.sin_real, Scalar.cos_real, Scalar.atan2_real, Scalar.sqrt_real, Scalar.powi_real]
    have h1 := polar_arg z (Real.sqrt (x ^ 2 + y ^ 2))
    have hs : z ^ 2 + Real.sqrt (x ^ 2 + y ^ 2) ^ 2 = x ^ 2 + y ^ 2 + z ^ 2 := by
      rw [Real.sq_sqrt (by positivity)]; ring
    rw [hs] at h1
    have h2 := polar_arg x y
    simp only [CVec.mk.injEq]
    refine ⟨?_, ?_, by rw [mul_comm]; exact h1.1⟩
    · rw [mul_right_comm, mul_comm (Real.sin _), h1.2, h2.1]
    · rw [mul_right_comm, mul_comm (Real.sin _), h1.2, h2.2]
  · simp only [rad2deg_real, Scalar.atan2_real, Scalar.sqrt_real, Scalar.powi_real]
    have hp := Real.pi_pos
    have h0 : 0 ≤ Complex.arg ⟨v.z, Real.sqrt (v.x ^ 2 + v.y ^ 2)⟩ := Complex.arg_nonneg_iff.2 (Real.sqrt_nonneg _)
    have h1 := Complex.arg_le_pi ⟨v.z, Real.sqrt (v.x ^ 2 + v.y ^ 2)⟩
    have h2 := Complex.arg_le_pi ⟨v.x, v.y⟩
    have h3 := Complex.neg_pi_lt_arg ⟨v.x, v.y⟩
    refine ⟨by positivity, ?_, ?_, ?_⟩
    · rw [div_le_iff₀ hp]; nlinarith
    · rw [lt_div_iff₀ hp]; nlinarith
    · rw [div_le_iff₀ hp]; nlinarith

/-- C49: vector to angles undoes angles to vector for a positive amplitude, a polar angle strictly between 0 and 180 and an
azimuth in (-180, 180]; on the polar axis the polar angle still comes back and the azimuth is 0. -/
theorem C49_from_angles (θ φ A : ℝ) (hA : 0 < A) (h2 : -180 < φ) (h3 : φ ≤ 180) :
    (0 < θ → θ < 180 → cvector2angle (angle2vector θ φ A) = (θ, φ, A)) ∧
    (θ = 0 ∨ θ = 180 → cvector2angle (angle2vector θ φ A) = (θ, 0, A)) := by
  have hp := Real.pi_pos
  have hlen := (C49_vector θ φ A).2
  rw [abs_of_pos hA] at hlen
  have key : 0 ≤ θ → θ ≤ 180 → cvector2angle (angle2vector θ φ A) = (θ, rad2deg (Complex.arg
      ⟨A * Real.sin (deg2rad θ) * Real.cos (deg2rad φ), A * Real.sin (deg2rad θ) * Real.sin (deg2rad φ)⟩), A) := by
    intro a b
    have hd0 : 0 ≤ deg2rad θ := by rw [deg2rad_real]; positivity
    have hd1 : deg2rad θ ≤ Real.pi := by rw [deg2rad_real, div_le_iff₀ (by norm_num)]; nlinarith
    have hsin := Real.sin_nonneg_of_nonneg_of_le_pi hd0 hd1
    have hρ : Real.sqrt ((Real.sin (deg2rad θ) * Real.cos (deg2rad φ) * A) ^ 2 + (Real.sin (deg2rad θ) * Real.sin (deg2rad φ) * A) ^ 2) =
        A * Real.sin (deg2rad θ) := by
      rw [← Real.sqrt_sq (mul_nonneg hA.le hsin)]
      congr 1
      have h := Real.sin_sq_add_cos_sq (deg2rad φ)
      linear_combination A ^ 2 * Real.sin (deg2rad θ) ^ 2 * h
    have h1 : (cvector2angle (angle2vector θ φ A)).2.2 = A := hlen
    have h4 : (cvector2angle (angle2vector θ φ A)).1 = θ := by
      show rad2deg (Complex.arg ⟨Real.cos (deg2rad θ) * A, Real.sqrt ((Real.sin (deg2rad θ) * Real.cos (deg2rad φ) * A) ^ 2 +
        (Real.sin (deg2rad θ) * Real.sin (deg2rad φ) * A) ^ 2)⟩) = θ
      rw [hρ, mul_comm (Real.cos _), arg_polar hA ⟨by linarith, hd1⟩, rad_deg]
    have h5 : (cvector2angle (angle2vector θ φ A)).2.1 = rad2deg (Complex.arg
        ⟨A * Real.sin (deg2rad θ) * Real.cos (deg2rad φ), A * Real.sin (deg2rad θ) * Real.sin (deg2rad φ)⟩) := by
      show rad2deg (Complex.arg ⟨Real.sin (deg2rad θ) * Real.cos (deg2rad φ) * A, Real.sin (deg2rad θ) * Real.sin (deg2rad φ) * A⟩) = _
      rw [show Real.sin (deg2rad θ) * Real.cos (deg2rad φ) * A = A * Real.sin (deg2rad θ) * Real.cos (deg2rad φ) by ring,
        show Real.sin (deg2rad θ) * Real.sin (deg2rad φ) * A = A * Real.sin (deg2rad θ) * Real.sin (deg2rad φ) by ring]
    exact Prod.ext h4 (Prod.ext h5 h1)
  constructor
  · intro a b
    have hd0 : 0 < deg2rad θ := by rw [deg2rad_real]; positivity
    have hd1 : deg2rad θ < Real.pi := by rw [deg2rad_real, div_lt_iff₀ (by norm_num)]; nlinarith
    have hf0 : -Real.pi < deg2rad φ := by rw [deg2rad_real, lt_div_iff₀ (by norm_num)]; nlinarith
    have hf1 : deg2rad φ ≤ Real.pi := by rw [deg2rad_real, div_le_iff₀ (by norm_num)]; nlinarith
    rw [key a.le b.le, arg_polar (mul_pos hA (Real.sin_pos_of_pos_of_lt_pi hd0 hd1)) ⟨hf0, hf1⟩, rad_deg]
  · intro h
    have hs : Real.sin (deg2rad θ) = 0 := by
      rw [deg2rad_real]
      rcases h with h | h
      · simp [h]
      · rw [h, mul_div_assoc, mul_comm, div_mul_cancel₀ _ (by norm_num)]; exact Real.sin_pi
    rw [key (by rcases h with h | h <;> rw [h]; norm_num) (by rcases h with h | h <;> rw [h]; norm_num), hs]
    simp only [mul_zero, zero_mul, Prod.mk.injEq, true_and, and_true]
    rw [rad2deg_real, show (⟨0, 0⟩ : ℂ) = 0 from rfl, Complex.arg_zero]
    simp

/-- C49: a span has the requested number of values, equally spaced, both ends included (one value: the start). -/
theorem C49_span (a b : ℝ) (n : Nat) : (linspace a b n).length = n ∧
    (∀ i < n, (linspace a b n)[i]? = some (if n = 1 then a else spaced a b n i)) ∧
    (0 < n → (linspace a b n).head? = some a) ∧ (1 < n → (linspace a b n).getLast? = some b) := by
  have hlen : (linspace a b n).length = n := by
    unfold linspace
    split
    · simp_all
    · simp
  have hget : ∀ i < n, (linspace a b n)[i]? = some (if n = 1 then a else spaced a b n i) := by
    intro i hi
    unfold linspace
    split
    · obtain rfl : i = 0 := by omega
      rfl
    · rename_i h
      rw [List.getElem?_map, List.getElem?_range hi]
      simp only [Option.map_some, Scalar.lit_real, Option.some.injEq, spaced]
      have h1 : 1 < n := by omega
      have hc : ((n - 1 : Nat) : ℝ) = (n : ℝ) - 1 := by push_cast [Nat.cast_sub h1.le]; ring
      have hn : (n : ℝ) - 1 ≠ 0 := by
        rw [← hc]; exact_mod_cast (by omega : n - 1 ≠ 0)
      split
      · rename_i h2
        have : (i : ℝ) = n - 1 := by rw [← h2]; push_cast; ring
        rw [this]; field_simp; ring
      · rw [show (((n - 1 : Nat) : ℚ) : ℝ) = (n : ℝ) - 1 by rw [← hc]; norm_cast,
          show (((i : Nat) : ℚ) : ℝ) = (i : ℝ) by norm_cast]
        ring
  refine ⟨hlen, hget, fun h => ?_, fun h => ?_⟩
  · rw [List.head?_eq_getElem?, hget 0 h]
    split <;> simp [spaced]
  · rw [List.getLast?_eq_getElem?, hlen, hget (n - 1) (by omega), if_neg (by omega)]
    have hn : (n : ℝ) - 1 ≠ 0 := by
      have : (1 : ℝ) < n := by exact_mod_cast h
      linarith
    rw [spaced, Nat.cast_sub h.le, Nat.cast_one]
    field_simp
    ring_nf

/-- C49: an amplitude scan consists of the requested amplitudes times the requested direction. -/
theorem C49_amplitude (a b : ℝ) (n : Nat) (θ φ : ℝ) : (amplitudeScan a b n θ φ false).1 = linspace a b n ∧
    (amplitudeScan a b n θ φ false).2 = (linspace a b n).map (angle2vector θ φ) ∧
    ∀ (back : Bool) (i : Nat) (v : CVec ℝ), (amplitudeScan a b n θ φ back).2[i]? = some v →
      ∃ h, (amplitudeScan a b n θ φ back).1[i]? = some h ∧ v = angle2vector θ φ h ∧ magnitude v = |h| := by
  have hb : ∀ back, (amplitudeScan a b n θ φ back).2 = (amplitudeScan a b n θ φ back).1.map (angle2vector θ φ) := by
    intro back
    cases back
    · rfl
    · exact (by rw [List.map_append, List.map_dropLast, List.map_reverse]; rfl :
        (amplitudeScan a b n θ φ true).2 = ((linspace a b n).dropLast ++ (linspace a b n).reverse).map (angle2vector θ φ))
  refine ⟨rfl, hb false, fun back i v hv => ?_⟩
  rw [hb back, List.getElem?_map, Option.map_eq_some_iff] at hv
  obtain ⟨h, h1, h2⟩ := hv
  exact ⟨h, h1, h2.symm, by rw [← h2]; exact (C49_vector θ φ h).2⟩

/-- C49: a forward-backward scan is a palindrome of 2n-1 points beginning with the forward scan and ending at the start. -/
theorem C49_back (a b : ℝ) (n : Nat) (θ φ : ℝ) (hn : 0 < n) :
    let s := amplitudeScan a b n θ φ true
    s.1.length = 2 * n - 1 ∧ s.2.length = 2 * n - 1 ∧ s.1.reverse = s.1 ∧ s.2.reverse = s.2 ∧
    s.1.take n = linspace a b n ∧ s.2.take n = (linspace a b n).map (angle2vector θ φ) ∧ s.1.getLast? = some a := by
  have key : ∀ {α : Type} (l : List α), l ≠ [] → (l.dropLast ++ l.reverse).reverse = l.dropLast ++ l.reverse ∧
      (l.dropLast ++ l.reverse).take l.length = l := by
    intro α l hl
    obtain ⟨i, x, rfl⟩ := List.eq_nil_or_concat l |>.resolve_left hl
    refine ⟨by simp, ?_⟩
    rw [List.concat_eq_append, List.dropLast_concat, List.reverse_concat,
      show i ++ x :: i.reverse = (i ++ [x]) ++ i.reverse by simp, List.take_left]
  have hlen := (C49_span a b n).1
  have hne : linspace a b n ≠ [] := by
    intro h; rw [h] at hlen; simp at hlen; omega
  have hne' : (linspace a b n).map (angle2vector θ φ) ≠ [] := by simpa using hne
  intro s
  have h1 : s.1 = (linspace a b n).dropLast ++ (linspace a b n).reverse := rfl
  have h2 : s.2 = ((linspace a b n).map (angle2vector θ φ)).dropLast ++ ((linspace a b n).map (angle2vector θ φ)).reverse := rfl
  have k1 := key _ hne
  have k2 := key _ hne'
  rw [List.length_map, hlen] at k2
  rw [hlen] at k1
  refine ⟨by rw [h1]; simp [hlen]; omega, by rw [h2]; simp [hlen]; omega, by rw [h1, k1.1], by rw [h2, k2.1], by rw [h1, k1.2],
    by rw [h2, k2.2], ?_⟩
  rw [h1, List.getLast?_append_of_ne_nil _ (by simpa using hne), List.getLast?_reverse]
  exact (C49_span a b n).2.2.1 hn

/-- C49: a scan of the polar angle. -/
theorem C49_theta (a b : ℝ) (n : Nat) (A φ : ℝ) : (thetaScan a b n A φ).1 = linspace a b n ∧
    (thetaScan a b n A φ).2 = (linspace a b n).map (fun θ => angle2vector θ φ A) ∧
    ∀ v ∈ (thetaScan a b n A φ).2, magnitude v = |A| := by
  refine ⟨rfl, rfl, fun v hv => ?_⟩
  obtain ⟨θ, -, rfl⟩ := List.mem_map.1 hv
  exact (C49_vector θ φ A).2

/-- C49: a scan of the azimuth. -/
theorem C49_phi (a b : ℝ) (n : Nat) (A θ : ℝ) : (phiScan a b n A θ).1 = linspace a b n ∧
    (phiScan a b n A θ).2 = (linspace a b n).map (fun φ => angle2vector θ φ A) ∧
    ∀ v ∈ (phiScan a b n A θ).2, magnitude v = |A| := by
  have e : (phiScan a b n A θ).2 = (linspace a b n).map (fun φ => angle2vector θ φ A) := by
    refine List.map_congr_left fun φ _ => ?_
    simp [trigCompute, angle2vector]
  refine ⟨rfl, e, fun v hv => ?_⟩
  rw [e] at hv
  obtain ⟨φ, -, rfl⟩ := List.mem_map.1 hv
  exact (C49_vector θ φ A).2

/-- Five amplitudes from -2 to 2 and back: nine points. -/
example : (amplitudeScan (-2 : ℝ) 2 5 90 0 true).1.length = 9 ∧ (linspace (-2 : ℝ) 2 5)[3]? = some 1 := by
  refine ⟨(C49_back (-2) 2 5 90 0 (by norm_num)).1, ?_⟩
  rw [(C49_span (-2) 2 5).2.1 3 (by norm_num)]
  norm_num [spaced]

/-- Angles 90° and 45°. -/
example : cvector2angle (angle2vector (90 : ℝ) 45 2) = (90, 45, 2) :=
  (C49_from_angles 90 45 2 (by norm_num) (by norm_num) (by norm_num)).1 (by norm_num) (by norm_num)

end FieldScan
