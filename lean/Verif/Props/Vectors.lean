import Verif.Lemmas.Vec

/-! # C01, C02: vectors -/
set_option linter.unusedSectionVars false

/-- **C01.** Every non-zero vector is turned into a unit vector pointing the same way: it is a *positive*
multiple of the input and its components' squares sum to one. -/
theorem C01_normalize_unit (x y z : ℝ) (h : ¬(x = 0 ∧ y = 0 ∧ z = 0)) :
    let w := (CVec.mk x y z).normalize
    w.x ^ 2 + w.y ^ 2 + w.z ^ 2 = 1 ∧
      ∃ c : ℝ, 0 < c ∧ x = c * w.x ∧ y = c * w.y ∧ z = c * w.z := by
  have hne : (CVec.mk x y z) ≠ CVec.zero := by
    intro h'; exact h ((CVec.eq_zero_iff _).1 h')
  refine ⟨CVec.normSq_normalize _ hne, (CVec.mk x y z).length, ?_, ?_⟩
  · exact lt_of_le_of_ne (CVec.length_nonneg _) (fun h' => hne ((CVec.length_eq_zero _).1 h'.symm))
  · have h0 : (CVec.mk x y z).length ≠ 0 := fun h' => hne ((CVec.length_eq_zero _).1 h')
    rw [CVec.normalize_of_ne _ hne]
    refine ⟨?_, ?_, ?_⟩ <;> field_simp

/-- hypotheses of `C01_normalize_unit` are met by a concrete vector -/
example : ¬((3 : ℝ) = 0 ∧ (4 : ℝ) = 0 ∧ (0 : ℝ) = 0) := by norm_num

/-- **C01.** There is only one such vector, so the result is determined by the two conditions. -/
theorem C01_normalize_unique (v w : CVec ℝ) (hv : v ≠ CVec.zero)
    (hw : w.x ^ 2 + w.y ^ 2 + w.z ^ 2 = 1)
    (hd : ∃ c : ℝ, 0 < c ∧ v.x = c * w.x ∧ v.y = c * w.y ∧ v.z = c * w.z) :
    v.normalize = w := by
  obtain ⟨c, hc, h1, h2, h3⟩ := hd
  have hl : v.length = c := by
    have : v.normSq = c ^ 2 := by
      simp only [CVec.normSq, h1, h2, h3]
      linear_combination c ^ 2 * hw
    rw [CVec.length_eq, this, Real.sqrt_sq hc.le]
  rw [CVec.normalize_of_ne v hv, hl]
  have hc0 : c ≠ 0 := hc.ne'
  ext <;> simp [h1, h2, h3, hc0]

example : (CVec.mk (3 : ℝ) 0 4) ≠ CVec.zero ∧ ((3 / 5 : ℝ) ^ 2 + 0 ^ 2 + (4 / 5 : ℝ) ^ 2 = 1) := by
  refine ⟨?_, by norm_num⟩
  intro h; have := congrArg CVec.x h; simp at this

/-- **C01.** The zero vector is left unchanged (no division by zero happens). -/
theorem C01_normalize_zero : (CVec.mk (0 : ℝ) 0 0).normalize = CVec.mk 0 0 0 := by
  have h : (CVec.mk (0 : ℝ) 0 0) = CVec.zero := by ext <;> simp
  rw [h]; exact CVec.normalize_zero

/-- **C01.** Normalising twice is normalising once, for every vector. -/
theorem C01_normalize_idem (v : CVec ℝ) : v.normalize.normalize = v.normalize := by
  by_cases h : v = CVec.zero
  · rw [h, CVec.normalize_zero, CVec.normalize_zero]
  · have h1 := CVec.normSq_normalize v h
    have hne : v.normalize ≠ CVec.zero := by
      intro h'; rw [h'] at h1; simp [CVec.normSq] at h1
    apply C01_normalize_unique _ _ hne h1
    exact ⟨1, one_pos, by simp⟩

/-- **C01.** The length reported is the Euclidean norm: non-negative, with square the sum of squares. -/
theorem C01_length (v : CVec ℝ) : 0 ≤ v.length ∧ v.length ^ 2 = v.x ^ 2 + v.y ^ 2 + v.z ^ 2 :=
  ⟨v.length_nonneg, v.length_sq⟩

section
variable {T : Type} [Scalar T]

/-- **C02.** A list is accepted exactly when it has three entries (any scalar type). -/
theorem C02_ofList_iff (l : List T) : (∃ v, CVec.ofList l = .ok v) ↔ l.length = 3 := by
  constructor
  · rintro ⟨v, h⟩
    unfold CVec.ofList at h
    split at h
    · rfl
    · cases h
  · intro h
    match l, h with
    | [a, b, c], _ => exact ⟨_, rfl⟩

/-- **C02.** Other lists raise. -/
theorem C02_ofList_error (l : List T) (h : l.length ≠ 3) : CVec.ofList l = .error .badLength := by
  unfold CVec.ofList
  split
  · simp at h
  · rfl

/-- **C02.** `tolist` inverts the constructor, and the constructor inverts `tolist`. -/
theorem C02_roundtrip (l : List T) (v : CVec T) : CVec.ofList l = .ok v ↔ v.toList = l := by
  constructor
  · intro h
    unfold CVec.ofList at h
    split at h
    · cases h; rfl
    · cases h
  · rintro rfl; rfl

/-- **C02.** Index `i` of the vector is entry `i` of the list for i = 0, 1, 2. -/
theorem C02_index (v : CVec T) (i : Nat) (h : i < 3) : v.toList[i]? = some (v.get i) := by
  match i, h with
  | 0, _ => rfl
  | 1, _ => rfl
  | 2, _ => rfl

example : (2 : Nat) < 3 := by decide

/-- **C02.** Every other integer index silently gives z. -/
theorem C02_index_other (v : CVec T) (i : Int) (h : i < 0 ∨ 3 ≤ i) : v.get i = v.z := by
  have h0 : i ≠ 0 := by omega
  have h1 : i ≠ 1 := by omega
  simp [CVec.get, h0, h1]

example : (-1 : Int) < 0 ∨ (3 : Int) ≤ -1 := by decide

/-- **C02.** Division raises exactly when the divisor compares equal to zero (any scalar type). -/
theorem C02_div_error_iff (v : CVec T) (s : T) :
    (CVec.div v s = .error .divZero ↔ Scalar.eqb s 0 = true) ∧
    ((∃ w, CVec.div v s = .ok w) ↔ Scalar.eqb s 0 = false) := by
  unfold CVec.div
  cases Scalar.eqb s 0 <;> simp
end

/-- **C02.** A non-zero division undoes multiplication on either side (reals). -/
theorem C02_div_mul (v : CVec ℝ) (s : ℝ) (hs : s ≠ 0) :
    CVec.div (v * s) s = .ok v ∧ CVec.div (s * v) s = .ok v ∧
      ∀ w, CVec.div v s = .ok w → w * s = v := by
  have h0 : ¬ (s = (0 : ℝ)) := hs
  refine ⟨?_, ?_, ?_⟩
  · simp [CVec.div, h0]
  · simp [CVec.div, h0]
  · intro w hw
    simp [CVec.div, h0] at hw
    rw [← hw]; ext <;> simp <;> field_simp

example : (2 : ℝ) ≠ 0 := by norm_num
