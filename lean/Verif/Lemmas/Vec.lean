import Verif.Model.CVector

/-! Helper lemmas on vectors. -/

namespace CVec
variable {T : Type} [Scalar T]

@[simp] theorem add_x (a b : CVec T) : (a + b).x = a.x + b.x := rfl
@[simp] theorem add_y (a b : CVec T) : (a + b).y = a.y + b.y := rfl
@[simp] theorem add_z (a b : CVec T) : (a + b).z = a.z + b.z := rfl
@[simp] theorem sub_x (a b : CVec T) : (a - b).x = a.x - b.x := rfl
@[simp] theorem sub_y (a b : CVec T) : (a - b).y = a.y - b.y := rfl
@[simp] theorem sub_z (a b : CVec T) : (a - b).z = a.z - b.z := rfl
@[simp] theorem mulr_x (v : CVec T) (s : T) : (v * s).x = v.x * s := rfl
@[simp] theorem mulr_y (v : CVec T) (s : T) : (v * s).y = v.y * s := rfl
@[simp] theorem mulr_z (v : CVec T) (s : T) : (v * s).z = v.z * s := rfl
@[simp] theorem mull_x (v : CVec T) (s : T) : (s * v).x = s * v.x := rfl
@[simp] theorem mull_y (v : CVec T) (s : T) : (s * v).y = s * v.y := rfl
@[simp] theorem mull_z (v : CVec T) (s : T) : (s * v).z = s * v.z := rfl
@[simp] theorem cross_x (a b : CVec T) : (cross a b).x = a.y * b.z - a.z * b.y := rfl
@[simp] theorem cross_y (a b : CVec T) : (cross a b).y = a.z * b.x - a.x * b.z := rfl
@[simp] theorem cross_z (a b : CVec T) : (cross a b).z = a.x * b.y - a.y * b.x := rfl
@[simp] theorem zero_x : (zero : CVec T).x = 0 := rfl
@[simp] theorem zero_y : (zero : CVec T).y = 0 := rfl
@[simp] theorem zero_z : (zero : CVec T).z = 0 := rfl

/-! Reals -/

/-- `v = 0` stated with Mathlib's zero. -/
theorem eq_zero_iff (v : CVec ℝ) : v = zero ↔ v.x = 0 ∧ v.y = 0 ∧ v.z = 0 := by
  constructor
  · rintro rfl; simp
  · rintro ⟨h1, h2, h3⟩; ext <;> simp [h1, h2, h3]

/-- squared norm -/
def normSq (v : CVec ℝ) : ℝ := v.x ^ 2 + v.y ^ 2 + v.z ^ 2

theorem normSq_nonneg (v : CVec ℝ) : 0 ≤ v.normSq := by unfold normSq; positivity

theorem length_eq (v : CVec ℝ) : v.length = Real.sqrt v.normSq := by simp [length, normSq]

theorem length_sq (v : CVec ℝ) : v.length ^ 2 = v.normSq := by
  rw [length_eq, Real.sq_sqrt v.normSq_nonneg]

theorem normSq_eq_dot (v : CVec ℝ) : v.normSq = v.dot v := by simp [normSq, dot]; ring

theorem normSq_eq_zero (v : CVec ℝ) : v.normSq = 0 ↔ v = zero := by
  rw [eq_zero_iff]; unfold normSq
  constructor
  · intro h
    refine ⟨?_, ?_, ?_⟩ <;> nlinarith [sq_nonneg v.x, sq_nonneg v.y, sq_nonneg v.z]
  · rintro ⟨h1, h2, h3⟩; simp [h1, h2, h3]

theorem length_eq_zero (v : CVec ℝ) : v.length = 0 ↔ v = zero := by
  rw [length_eq, Real.sqrt_eq_zero v.normSq_nonneg, normSq_eq_zero]

theorem length_nonneg (v : CVec ℝ) : 0 ≤ v.length := by rw [length_eq]; exact Real.sqrt_nonneg _

theorem length_eq_one (v : CVec ℝ) : v.length = 1 ↔ v.normSq = 1 := by
  rw [length_eq]
  constructor
  · intro h; have := Real.sq_sqrt v.normSq_nonneg; rw [h] at this; linarith
  · intro h; rw [h]; simp

theorem normalize_zero : (zero : CVec ℝ).normalize = zero := by
  have : (zero : CVec ℝ).length = 0 := (length_eq_zero _).2 rfl
  simp [normalize, this]

theorem normalize_of_ne (v : CVec ℝ) (h : v ≠ zero) :
    v.normalize = ⟨v.x / v.length, v.y / v.length, v.z / v.length⟩ := by
  have : v.length ≠ 0 := fun h' => h ((length_eq_zero v).1 h')
  simp [normalize, this]

theorem normSq_normalize (v : CVec ℝ) (h : v ≠ zero) : v.normalize.normSq = 1 := by
  have h0 : v.length ≠ 0 := fun h' => h ((length_eq_zero v).1 h')
  rw [normalize_of_ne v h]
  have := v.length_sq
  simp only [normSq] at this ⊢
  field_simp
  linarith

theorem dot_cross_self (a b : CVec ℝ) : a.dot (a.cross b) = 0 := by
  simp only [dot, cross]; ring

theorem dot_cross_self' (a b : CVec ℝ) : b.dot (a.cross b) = 0 := by
  simp only [dot, cross]; ring

theorem dot_comm (a b : CVec ℝ) : a.dot b = b.dot a := by simp only [dot]; ring

theorem dot_add (a b c : CVec ℝ) : a.dot (b + c) = a.dot b + a.dot c := by simp [dot]; ring
theorem add_dot (a b c : CVec ℝ) : (a + b).dot c = a.dot c + b.dot c := by simp [dot]; ring
theorem dot_mulr (a b : CVec ℝ) (s : ℝ) : a.dot (b * s) = a.dot b * s := by simp [dot]; ring
theorem dot_mull (a b : CVec ℝ) (s : ℝ) : a.dot (s * b) = s * a.dot b := by simp [dot]; ring
theorem mulr_dot (a b : CVec ℝ) (s : ℝ) : (a * s).dot b = a.dot b * s := by simp [dot]; ring
theorem mull_dot (a b : CVec ℝ) (s : ℝ) : (s * a).dot b = s * a.dot b := by simp [dot]; ring

/-- Lagrange's identity. -/
theorem normSq_cross (a b : CVec ℝ) : (a.cross b).normSq = a.normSq * b.normSq - a.dot b ^ 2 := by
  simp only [normSq, cross, dot]; ring

/-- Cauchy–Schwarz. -/
theorem dot_sq_le (a b : CVec ℝ) : a.dot b ^ 2 ≤ a.normSq * b.normSq := by
  have := (a.cross b).normSq_nonneg
  rw [normSq_cross] at this; linarith

end CVec
