import Verif.Model.PyView
import Verif.Spec.PyView
import Verif.Props.PyVector
import Mathlib.Analysis.Real.Pi.Irrational
import Mathlib.Analysis.SpecialFunctions.Trigonometric.Arctan

set_option linter.unusedSectionVars false

/-!
# C99: the axes of the front end
-/

namespace View
open Spec

/-- The components a name of an axis stands for. -/
theorem named_eq :
    named "x" = ⟨1, 0, 0⟩ ∧ named "y" = ⟨0, 1, 0⟩ ∧ named "z" = ⟨0, 0, 1⟩ ∧ named "xy" = ⟨1, 1, 0⟩ ∧ named "xz" = ⟨1, 0, 1⟩ ∧
      named "yz" = ⟨0, 1, 1⟩ := by
  simp [named, letterIn]

/-- An offered axis is one of six. -/
theorem axis_cases {a : String} (h : a ∈ axisNames) : a = "x" ∨ a = "y" ∨ a = "z" ∨ a = "xy" ∨ a = "xz" ∨ a = "yz" := by
  simpa [axisNames] using h

/-- **C99.** The vector of an axis has 1 in the components its name has a letter for and 0 in the others; other names raise. -/
theorem C99_vector (a : String) : (axisVector a : Except Err (CVec ℝ)) = if a ∈ axisNames then .ok (named a) else .error .valueError := by
  obtain ⟨n1, n2, n3, n4, n5, n6⟩ := named_eq
  by_cases h : a ∈ axisNames
  · rw [if_pos h]
    rcases axis_cases h with rfl | rfl | rfl | rfl | rfl | rfl <;> simp [axisVector, *]
  · rw [if_neg h]
    simp only [axisNames, List.mem_cons, List.not_mem_nil, or_false, not_or] at h
    simp [axisVector, h]

/-- sin and cos of the angles in the table -/
theorem table : Real.sin (90 * Real.pi / 180) = 1 ∧ Real.cos (90 * Real.pi / 180) = 0 ∧ Real.sin (45 * Real.pi / 180) = √2 / 2 ∧
    Real.cos (45 * Real.pi / 180) = √2 / 2 := by
  rw [show 90 * Real.pi / 180 = Real.pi / 2 by ring, show 45 * Real.pi / 180 = Real.pi / 4 by ring]
  simp

/-- The angles of the axes, as real numbers. -/
theorem angles_eq :
    (axisAngles "x" : Except Err (ℝ × ℝ)) = .ok (90, 0) ∧ (axisAngles "y" : Except Err (ℝ × ℝ)) = .ok (90, 90) ∧
    (axisAngles "z" : Except Err (ℝ × ℝ)) = .ok (0, 0) ∧ (axisAngles "xy" : Except Err (ℝ × ℝ)) = .ok (90, 45) ∧
    (axisAngles "xz" : Except Err (ℝ × ℝ)) = .ok (45, 0) ∧ (axisAngles "yz" : Except Err (ℝ × ℝ)) = .ok (45, 90) := by
  simp [axisAngles]

/-- **C99.** The angles of an offered axis are those of the direction it names: taken through `angle2vector` they give the unit vector along it,
times the amplitude. Other names raise. -/
theorem C99_angles (a : String) :
    (a ∈ axisNames → ∃ θ φ : ℝ, axisAngles a = .ok (θ, φ) ∧ ∀ A, Pointing (FieldScan.angle2vector θ φ A) (named a) A) ∧
    (a ∉ axisNames → (axisAngles a : Except Err (ℝ × ℝ)) = .error .valueError) := by
  obtain ⟨n1, n2, n3, n4, n5, n6⟩ := named_eq
  obtain ⟨e1, e2, e3, e4, e5, e6⟩ := angles_eq
  obtain ⟨t1, t2, t3, t4⟩ := table
  have r : 1 / √2 = √2 / 2 := by
    rw [div_eq_div_iff (by positivity) (by norm_num)]
    norm_num
  constructor
  · intro h
    rcases axis_cases h with rfl | rfl | rfl | rfl | rfl | rfl
    · exact ⟨_, _, e1, fun A => by rw [Pointing, FieldScan.angle2vector_real, n1]; simp [unitAt, magnitude, t1, t2]⟩
    · exact ⟨_, _, e2, fun A => by rw [Pointing, FieldScan.angle2vector_real, n2]; simp [unitAt, magnitude, t1, t2]⟩
    · exact ⟨_, _, e3, fun A => by rw [Pointing, FieldScan.angle2vector_real, n3]; simp [unitAt, magnitude]⟩
    · exact ⟨_, _, e4, fun A => by
        rw [Pointing, FieldScan.angle2vector_real, n4]
        simp only [unitAt, magnitude, t1, t2, t3, t4]
        norm_num [r]⟩
    · exact ⟨_, _, e5, fun A => by
        rw [Pointing, FieldScan.angle2vector_real, n5]
        simp only [unitAt, magnitude, t3, t4]
        norm_num [r]⟩
    · exact ⟨_, _, e6, fun A => by
        rw [Pointing, FieldScan.angle2vector_real, n6]
        simp only [unitAt, magnitude, t1, t2, t3, t4]
        norm_num [r]⟩
  · intro h
    simp only [axisNames, List.mem_cons, List.not_mem_nil, or_false, not_or] at h
    simp [axisAngles, h]

/-- **C99.** The excitation axis has a single letter, and a driver on it acts along the axis of that name. -/
theorem C99_excitation (a : String) :
    (a ∈ ["x", "y", "z"] → ∃ ax, getAxis a = .ok ax ∧ ∀ (d : ScalarDriver ℝ) (t : ℝ),
      ((Proc.onAxis ax d).value t) = ⟨d.value t * (named a).x, d.value t * (named a).y, d.value t * (named a).z⟩) ∧
    (a ∉ ["x", "y", "z"] → getAxis a = .error .valueError) := by
  obtain ⟨n1, n2, n3, n4, n5, n6⟩ := named_eq
  have h0 : ∀ t : ℝ, ScalarDriver.null.value t = (0 : ℝ) := fun t => by simp [ScalarDriver.null, ScalarDriver.value]
  constructor
  · intro h
    simp only [List.mem_cons, List.not_mem_nil, or_false] at h
    rcases h with rfl | rfl | rfl
    · exact ⟨.xaxis, rfl, fun d t => by simp [Proc.onAxis, AxialDriver.value, n1, h0]⟩
    · exact ⟨.yaxis, rfl, fun d t => by simp [Proc.onAxis, AxialDriver.value, n2, h0]⟩
    · exact ⟨.zaxis, rfl, fun d t => by simp [Proc.onAxis, AxialDriver.value, n3, h0]⟩
  · intro h
    simp only [List.mem_cons, List.not_mem_nil, or_false, not_or] at h
    simp [getAxis, h]

/-- 90 is not a zero of the cosine. -/
theorem cos_ninety : Real.cos 90 ≠ 0 := by
  intro h
  obtain ⟨k, hk⟩ := Real.cos_eq_zero_iff.mp h
  have h2 : (2 * k + 1 : ℝ) ≠ 0 := by
    intro h0
    rw [h0] at hk
    norm_num at hk
  refine irrational_pi ⟨180 / (2 * k + 1), ?_⟩
  push_cast
  rw [div_eq_iff h2]
  linarith

/-- 45 is not a zero of the sine. -/
theorem sin_fortyfive : Real.sin 45 ≠ 0 := by
  intro h
  obtain ⟨k, hk⟩ := Real.sin_eq_zero_iff.mp h
  have h2 : (k : ℝ) ≠ 0 := by
    intro h0
    rw [h0] at hk
    norm_num at hk
  refine irrational_pi ⟨45 / k, ?_⟩
  push_cast
  rw [div_eq_iff h2]
  linarith

/-- The sine and the cosine of 45 differ. -/
theorem sin_ne_cos : Real.sin 45 ≠ Real.cos 45 := by
  intro h
  have h1 : Real.cos 90 = 0 := by
    rw [show (90 : ℝ) = 2 * 45 by norm_num, Real.cos_two_mul', h]
    ring
  exact cos_ninety h1

/-- **C99, refuted for the Smit-Beljers sweeps.** Their field is a vector object, which takes radians, with the angles of the table, which are
degrees. It lies along the selected axis for "z" only. -/
theorem C99_sweep_refuted (a : String) (ha : a ∈ axisNames) (θ φ h : ℝ) (hh : h ≠ 0) (e : axisAngles a = .ok (θ, φ)) :
    Along (VectorObj.getCartesian ⟨θ, φ, h⟩) (named a) ↔ a = "z" := by
  obtain ⟨n1, n2, n3, n4, n5, n6⟩ := named_eq
  obtain ⟨e1, e2, e3, e4, e5, e6⟩ := angles_eq
  simp only [VectorObj.getCartesian, VectorObj.fromSpherical, Scalar.sin_real, Scalar.cos_real]
  rcases axis_cases ha with rfl | rfl | rfl | rfl | rfl | rfl
  · rw [e1] at e
    simp only [Except.ok.injEq, Prod.mk.injEq] at e
    obtain ⟨rfl, rfl⟩ := e
    simp [Along, n1, hh, cos_ninety]
  · rw [e2] at e
    simp only [Except.ok.injEq, Prod.mk.injEq] at e
    obtain ⟨rfl, rfl⟩ := e
    simp [Along, n2, hh, cos_ninety]
  · rw [e3] at e
    simp only [Except.ok.injEq, Prod.mk.injEq] at e
    obtain ⟨rfl, rfl⟩ := e
    simp [Along, n3]
  · rw [e4] at e
    simp only [Except.ok.injEq, Prod.mk.injEq] at e
    obtain ⟨rfl, rfl⟩ := e
    simp [Along, n4, hh, cos_ninety]
  · rw [e5] at e
    simp only [Except.ok.injEq, Prod.mk.injEq] at e
    obtain ⟨rfl, rfl⟩ := e
    simp only [Along, n5, CVec.mk.injEq, String.reduceEq, iff_false, not_exists, not_and]
    intro c h1 _ h3
    simp only [Real.cos_zero, mul_one] at h1 h3
    have := mul_left_cancel₀ hh (h1.trans h3.symm)
    exact sin_ne_cos this
  · rw [e6] at e
    simp only [Except.ok.injEq, Prod.mk.injEq] at e
    obtain ⟨rfl, rfl⟩ := e
    simp [Along, n6, hh, cos_ninety, sin_fortyfive]

end View
