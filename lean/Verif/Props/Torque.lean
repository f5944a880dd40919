import Verif.Lemmas.Exec
import Verif.Lemmas.Layer
import Verif.Spec.Fields

set_option linter.unusedSectionVars false
set_option linter.unusedSimpArgs false

/-! # C10, C11, C12: the LLG right-hand side -/

namespace Layer
open Spec

/-- A concrete layer used in the non-vacuity examples. -/
noncomputable def demo : Layer ℝ where
  id := "free"
  temperatureDriver := .null
  IECDriverTop := .null
  IECDriverBottom := .null
  IECQuadDriverTop := .null
  IECQuadDriverBottom := .null
  IDMIDriverTop := .null
  IDMIDriverBottom := .null
  HreservedDriver := .null
  currentDriver := .constantDriver 1
  anisotropyDriver := .constantDriver 1
  fieldLikeTorqueDriver := .null
  dampingLikeTorqueDriver := .null
  externalFieldDriver := .ofVec ⟨1, 0, 0⟩
  HoeDriver := .null
  HdmiDriver := .null
  nonStochasticTempSet := false
  temperatureSet := false
  pinkNoiseSet := false
  alternativeSTTSet := false
  referenceType := .FIXED
  noiseParams := ⟨1, 0, 0, .all⟩
  bfn := none
  includeSTT := true
  includeSOT := false
  Ms := 1
  thickness := 1
  cellVolume := 1
  cellSurface := 1
  mag := ⟨0, 0, 1⟩
  anis := ⟨0, 0, 1⟩
  referenceLayer := ⟨0, 1, 0⟩
  demagTensor := .zero
  dipoleBottom := .zero
  dipoleTop := .zero
  damping := 1 / 10
  dynamicSOT := true
  fieldLikeTorque := 1
  dampingLikeTorque := 2
  slonczewski := 1
  beta := 1
  kappa := 1
  spinPolarisation := 1
  cache := .init
  gauss := fun _ => 0
  gpos := 0
  alphaSrc := fun _ _ _ _ => 0
  bfnCount := 0

theorem demo_guard : demo.Guard := by simp [Guard, demo]

/-- helper: every branch of `solveLLG` is a combination of vectors `m × _`. -/
theorem solveLLG_dot (l : Layer ℝ) (t : ℝ) (m b a h : CVec ℝ) : (l.solveLLG t m b a h).1.dot m = 0 := by
  unfold solveLLG
  split
  · simp only [CVec.dot, CVec.mulr_x, CVec.mulr_y, CVec.mulr_z, CVec.add_x, CVec.add_y, CVec.add_z,
      CVec.cross_x, CVec.cross_y, CVec.cross_z]
    ring
  · split
    · simp only [CVec.dot, CVec.mulr_x, CVec.mulr_y, CVec.mulr_z, CVec.add_x, CVec.add_y, CVec.add_z,
        CVec.cross_x, CVec.cross_y, CVec.cross_z]
      ring
    · simp only [CVec.dot, CVec.mulr_x, CVec.mulr_y, CVec.mulr_z, CVec.add_x, CVec.add_y, CVec.add_z,
        CVec.cross_x, CVec.cross_y, CVec.cross_z]
      ring

/-- C10. Whatever the layer (plain, STT, SOT), time, neighbours and fields: when the right-hand side can be
evaluated it is orthogonal to the magnetisation it is evaluated at. -/
theorem C10_torque_orthogonal (l : Layer ℝ) (t : ℝ) (m b a r : CVec ℝ) (l' : Layer ℝ)
    (h : l.llg t m b a = .ok r l') : r.x * m.x + r.y * m.y + r.z * m.z = 0 := by
  obtain ⟨hh, l1, h1, h2⟩ := Out.bind_eq_ok h
  simp only [Out.ok, Out.mk.injEq, Except.ok.injEq] at h2
  rw [← h2.1]
  exact solveLLG_dot l1 t m b a hh

/-- C10 for the evaluation with an injected stray field (groups of junctions). -/
theorem C10_torque_orthogonal_dipole (l : Layer ℝ) (t : ℝ) (m b a dip r : CVec ℝ) (l' : Layer ℝ)
    (h : l.llgDipoleInjection t m b a dip = .ok r l') : r.x * m.x + r.y * m.y + r.z * m.z = 0 := by
  obtain ⟨hh, l1, h1, h2⟩ := Out.bind_eq_ok h
  simp only [Out.ok, Out.mk.injEq, Except.ok.injEq] at h2
  rw [← h2.1]
  exact solveLLG_dot l1 t m b a hh

/-- The right-hand side can be evaluated exactly when `Ms * thickness` is not zero. -/
theorem C10_evaluates_iff (l : Layer ℝ) (t : ℝ) (m b a : CVec ℝ) :
    (∃ r l', l.llg t m b a = .ok r l') ↔ l.Ms * l.thickness ≠ 0 := by
  constructor
  · rintro ⟨r, l', h⟩ hz
    have : ¬ l.Guard := by simp [Guard, hz]
    obtain ⟨c, hc⟩ := l.llg_err t m b a this
    rw [hc] at h; simp [Out.ok, Out.fail] at h
  · intro hz
    have : l.Guard := by simpa [Guard] using hz
    obtain ⟨c, hc⟩ := l.llg_ok t m b a this
    exact ⟨_, _, hc⟩

example : ∃ r l', demo.llg 0 ⟨0, 0, 1⟩ .zero .zero = .ok r l' :=
  (C10_evaluates_iff demo 0 _ _ _).2 (by simp [demo])

/-! ### C11 -/

/-- helper: value of the plain right-hand side -/
theorem plain_value (l : Layer ℝ) (h1 : l.includeSTT = false) (h2 : l.includeSOT = false) (t : ℝ)
    (m b a h : CVec ℝ) :
    (l.solveLLG t m b a h).1 =
      smul (-220880 / (1 + l.damping ^ 2)) (m.cross h + smul l.damping (m.cross (m.cross h))) := by
  unfold solveLLG
  rw [if_neg (by simp [h1]), if_neg (by simp [h2])]
  ext <;>
  · simp only [smul, Const.gyro, CVec.mulr_x, CVec.mulr_y, CVec.mulr_z, CVec.add_x, CVec.add_y, CVec.add_z,
      CVec.cross_x, CVec.cross_y, CVec.cross_z, Scalar.powi_real, Scalar.ofSci_real_true, Scalar.ofNat_real,
      Nat.cast_ofNat, Nat.cast_one]
    ring

/-- helper: the field and the right-hand side of one evaluation belong together -/
theorem llg_of_heff (l : Layer ℝ) (h1 : l.includeSTT = false) (h2 : l.includeSOT = false) (t : ℝ)
    (m b a h r : CVec ℝ) (l1 l2 : Layer ℝ) (hh : l.calculateHeff t m b a .zero = .ok h l1)
    (hr : l.llg t m b a = .ok r l2) :
    r = smul (-220880 / (1 + l.damping ^ 2)) (m.cross h + smul l.damping (m.cross (m.cross h))) := by
  by_cases hg : l.Guard
  · obtain ⟨c, hc⟩ := l.heff_ok t m b a .zero hg
    obtain ⟨c', hc'⟩ := l.llg_ok t m b a hg
    rw [hc] at hh; rw [hc'] at hr
    simp only [Out.ok, Out.mk.injEq, Except.ok.injEq] at hh hr
    rw [← hr.1, ← hh.1]
    exact plain_value l h1 h2 t m b a _
  · obtain ⟨c, hc⟩ := l.heff_err t m b a .zero hg
    rw [hc] at hh; simp [Out.ok, Out.fail] at hh

/-- C11. Without spin torques the magnetisation moves so that its projection on the effective field grows at
the rate `γα/(1+α²)·|m×H|²`; in particular it never decreases for `α ≥ 0`. -/
theorem C11_dissipation (l : Layer ℝ) (h1 : l.includeSTT = false) (h2 : l.includeSOT = false) (t : ℝ)
    (m b a h r : CVec ℝ) (l1 l2 : Layer ℝ) (hh : l.calculateHeff t m b a .zero = .ok h l1)
    (hr : l.llg t m b a = .ok r l2) :
    r.x * h.x + r.y * h.y + r.z * h.z = 220880 * l.damping / (1 + l.damping ^ 2) *
      ((m.y * h.z - m.z * h.y) ^ 2 + (m.z * h.x - m.x * h.z) ^ 2 + (m.x * h.y - m.y * h.x) ^ 2) := by
  rw [llg_of_heff l h1 h2 t m b a h r l1 l2 hh hr]
  simp only [smul, CVec.add_x, CVec.add_y, CVec.add_z, CVec.cross_x, CVec.cross_y, CVec.cross_z]
  ring

theorem C11_projection_nondecreasing (l : Layer ℝ) (h1 : l.includeSTT = false) (h2 : l.includeSOT = false)
    (hd : 0 ≤ l.damping) (t : ℝ) (m b a h r : CVec ℝ) (l1 l2 : Layer ℝ)
    (hh : l.calculateHeff t m b a .zero = .ok h l1) (hr : l.llg t m b a = .ok r l2) :
    0 ≤ r.x * h.x + r.y * h.y + r.z * h.z := by
  rw [C11_dissipation l h1 h2 t m b a h r l1 l2 hh hr]; positivity

/-- C11, zero damping: the projection is conserved. -/
theorem C11_conservative (l : Layer ℝ) (h1 : l.includeSTT = false) (h2 : l.includeSOT = false)
    (hd : l.damping = 0) (t : ℝ) (m b a h r : CVec ℝ) (l1 l2 : Layer ℝ)
    (hh : l.calculateHeff t m b a .zero = .ok h l1) (hr : l.llg t m b a = .ok r l2) :
    r.x * h.x + r.y * h.y + r.z * h.z = 0 := by
  rw [C11_dissipation l h1 h2 t m b a h r l1 l2 hh hr, hd]; simp

/-- helper: `m × h = 0` means parallel -/
theorem cross_zero_iff_parallel (m h : CVec ℝ) (hm : m ≠ .zero) : m.cross h = .zero ↔ Parallel m h := by
  have hn : m.normSq ≠ 0 := fun hh => hm ((CVec.normSq_eq_zero m).1 hh)
  rw [CVec.eq_zero_iff]
  simp only [CVec.cross_x, CVec.cross_y, CVec.cross_z]
  constructor
  · rintro ⟨e1, e2, e3⟩
    refine ⟨(m.x * h.x + m.y * h.y + m.z * h.z) / m.normSq, ?_⟩
    ext
    · show h.x = (m.x * h.x + m.y * h.y + m.z * h.z) / m.normSq * m.x
      rw [div_mul_eq_mul_div, eq_div_iff hn]; unfold CVec.normSq
      linear_combination m.y * (-e3) + m.z * e2
    · show h.y = (m.x * h.x + m.y * h.y + m.z * h.z) / m.normSq * m.y
      rw [div_mul_eq_mul_div, eq_div_iff hn]; unfold CVec.normSq
      linear_combination m.x * e3 - m.z * e1
    · show h.z = (m.x * h.x + m.y * h.y + m.z * h.z) / m.normSq * m.z
      rw [div_mul_eq_mul_div, eq_div_iff hn]; unfold CVec.normSq
      linear_combination m.y * e1 - m.x * e2
  · rintro ⟨c, rfl⟩
    refine ⟨?_, ?_, ?_⟩ <;> simp only <;> ring

/-- helper -/
theorem plain_zero_iff (α : ℝ) (m h : CVec ℝ) :
    smul (-220880 / (1 + α ^ 2)) (m.cross h + smul α (m.cross (m.cross h))) = .zero ↔ m.cross h = .zero := by
  have hd : (1 + α ^ 2) ≠ 0 := by positivity
  constructor
  · intro e
    have hx : m.cross h + smul α (m.cross (m.cross h)) = .zero := by
      rw [CVec.eq_zero_iff] at e ⊢
      simp only [smul] at e ⊢
      have hk : (-220880 / (1 + α ^ 2) : ℝ) ≠ 0 := by
        apply div_ne_zero _ hd; norm_num
      exact ⟨(mul_eq_zero.1 e.1).resolve_left hk, (mul_eq_zero.1 e.2.1).resolve_left hk,
        (mul_eq_zero.1 e.2.2).resolve_left hk⟩
    -- take the scalar product with m × h
    rw [← CVec.normSq_eq_zero]
    rw [CVec.eq_zero_iff] at hx
    simp only [smul, CVec.add_x, CVec.add_y, CVec.add_z, CVec.cross_x, CVec.cross_y, CVec.cross_z] at hx
    simp only [CVec.normSq, CVec.cross_x, CVec.cross_y, CVec.cross_z]
    obtain ⟨e1, e2, e3⟩ := hx
    linear_combination (m.y * h.z - m.z * h.y) * e1 + (m.z * h.x - m.x * h.z) * e2
      + (m.x * h.y - m.y * h.x) * e3
  · intro e
    rw [e]
    ext <;> simp [smul]

/-- C11. The plain layer is stationary exactly when its (non-zero) magnetisation is parallel to the effective
field; the sign of the damping does not matter. -/
theorem C11_stationary_iff (l : Layer ℝ) (h1 : l.includeSTT = false) (h2 : l.includeSOT = false) (t : ℝ)
    (m b a h r : CVec ℝ) (hm : m ≠ .zero) (l1 l2 : Layer ℝ) (hh : l.calculateHeff t m b a .zero = .ok h l1)
    (hr : l.llg t m b a = .ok r l2) : r = .zero ↔ Parallel m h := by
  rw [llg_of_heff l h1 h2 t m b a h r l1 l2 hh hr, plain_zero_iff, cross_zero_iff_parallel m h hm]

example : ∃ h l1 r l2, (plainOf demo).calculateHeff 0 ⟨0, 0, 1⟩ .zero .zero .zero = .ok h l1 ∧
    (plainOf demo).llg 0 ⟨0, 0, 1⟩ .zero .zero = .ok r l2 ∧ (plainOf demo).includeSTT = false ∧
    (plainOf demo).includeSOT = false ∧ 0 ≤ (plainOf demo).damping := by
  obtain ⟨c, hc⟩ := (plainOf demo).heff_ok 0 ⟨0, 0, 1⟩ .zero .zero .zero demo_guard
  obtain ⟨c', hc'⟩ := (plainOf demo).llg_ok 0 ⟨0, 0, 1⟩ .zero .zero demo_guard
  exact ⟨_, _, _, _, hc, hc', rfl, rfl, by simp [plainOf, demo]⟩

/-! ### C12 -/

/-- helper: two layers whose fields and torques agree give the same right-hand side -/
theorem llg_res_eq (l : Layer ℝ) (t : ℝ) (m b a : CVec ℝ)
    (h : ∀ hf, (l.solveLLG t m b a hf).1 = ((plainOf l).solveLLG t m b a hf).1) :
    (l.llg t m b a).res = ((plainOf l).llg t m b a).res := by
  by_cases hg : l.Guard
  · obtain ⟨c, hc⟩ := l.llg_ok t m b a hg
    obtain ⟨c', hc'⟩ := (plainOf l).llg_ok t m b a hg
    rw [hc, hc']
    simp only [Out.ok_res, Except.ok.injEq]
    exact h _
  · obtain ⟨c, hc⟩ := l.llg_err t m b a hg
    obtain ⟨c', hc'⟩ := (plainOf l).llg_err t m b a hg
    rw [hc, hc']; rfl

/-- C12. Zero current: a spin-transfer layer moves like the plain layer. -/
theorem C12_stt_zero_current (l : Layer ℝ) (t : ℝ) (m b a : CVec ℝ) (hs : l.includeSTT = true)
    (hI : l.currentDriver.value t = 0) : (l.llg t m b a).res = ((plainOf l).llg t m b a).res := by
  apply llg_res_eq
  intro hf
  rw [plain_value (plainOf l) rfl rfl]
  unfold solveLLG
  rw [if_pos hs]
  ext <;>
  · simp only [hI, smul, plainOf, Const.gyro, CVec.mulr_x, CVec.mulr_y, CVec.mulr_z, CVec.add_x, CVec.add_y, CVec.add_z,
      CVec.cross_x, CVec.cross_y, CVec.cross_z, Scalar.powi_real, Scalar.ofSci_real_true, Scalar.ofNat_real,
      Nat.cast_ofNat, Nat.cast_one, mul_zero, zero_div, zero_mul, neg_zero, add_zero]
    ring

/-- C12. Zero polarisation: likewise. -/
theorem C12_stt_zero_polarisation (l : Layer ℝ) (t : ℝ) (m b a : CVec ℝ) (hs : l.includeSTT = true)
    (hI : l.spinPolarisation = 0) : (l.llg t m b a).res = ((plainOf l).llg t m b a).res := by
  apply llg_res_eq
  intro hf
  rw [plain_value (plainOf l) rfl rfl]
  have he : ∀ ref, l.sttEta m ref = 0 := by intro ref; unfold sttEta; split <;> simp [hI]
  unfold solveLLG
  rw [if_pos hs]
  ext <;>
  · simp only [he, smul, plainOf, Const.gyro, CVec.mulr_x, CVec.mulr_y, CVec.mulr_z, CVec.add_x, CVec.add_y, CVec.add_z,
      CVec.cross_x, CVec.cross_y, CVec.cross_z, Scalar.powi_real, Scalar.ofSci_real_true, Scalar.ofNat_real,
      Nat.cast_ofNat, Nat.cast_one, mul_zero, zero_div, zero_mul, neg_zero, add_zero]
    ring

/-- C12. Zero torques of a driver-based SOT layer: likewise. -/
theorem C12_sot_dynamic_zero (l : Layer ℝ) (t : ℝ) (m b a : CVec ℝ) (hs : l.includeSTT = false)
    (hd : l.dynamicSOT = true) (h1 : l.dampingLikeTorqueDriver.value t = 0)
    (h2 : l.fieldLikeTorqueDriver.value t = 0) : (l.llg t m b a).res = ((plainOf l).llg t m b a).res := by
  apply llg_res_eq
  intro hf
  rw [plain_value (plainOf l) rfl rfl]
  unfold solveLLG
  rw [if_neg (by simp [hs])]
  by_cases hso : l.includeSOT = true
  · rw [if_pos hso]
    ext <;>
    · simp only [hd, h1, h2, if_true, smul, plainOf, Const.gyro, CVec.mulr_x, CVec.mulr_y, CVec.mulr_z, CVec.add_x,
        CVec.add_y, CVec.add_z,
        CVec.cross_x, CVec.cross_y, CVec.cross_z, Scalar.powi_real, Scalar.ofSci_real_true, Scalar.ofNat_real,
        Nat.cast_ofNat, Nat.cast_one, mul_zero, zero_mul, sub_zero, add_zero]
      ring
  · rw [if_neg hso]
    ext <;>
    · simp only [smul, plainOf, Const.gyro, CVec.mulr_x, CVec.mulr_y, CVec.mulr_z, CVec.add_x, CVec.add_y, CVec.add_z,
        CVec.cross_x, CVec.cross_y, CVec.cross_z, Scalar.powi_real, Scalar.ofSci_real_true, Scalar.ofNat_real,
        Nat.cast_ofNat, Nat.cast_one]
      ring

/-- C12. Zero current in a static SOT layer: likewise. -/
theorem C12_sot_static_zero_current (l : Layer ℝ) (t : ℝ) (m b a : CVec ℝ) (hs : l.includeSTT = false)
    (hso : l.includeSOT = true) (hd : l.dynamicSOT = false) (h1 : l.currentDriver.value t = 0) :
    (l.llg t m b a).res = ((plainOf l).llg t m b a).res := by
  apply llg_res_eq
  intro hf
  rw [plain_value (plainOf l) rfl rfl]
  unfold solveLLG
  rw [if_neg (by simp [hs]), if_pos hso]
  ext <;>
  · simp only [hd, h1, if_false, Bool.false_eq_true, smul, plainOf, Const.gyro, CVec.mulr_x, CVec.mulr_y, CVec.mulr_z, CVec.add_x,
      CVec.add_y, CVec.add_z,
      CVec.cross_x, CVec.cross_y, CVec.cross_z, Scalar.powi_real, Scalar.ofSci_real_true, Scalar.ofNat_real,
      Nat.cast_ofNat, Nat.cast_one, mul_zero, zero_mul, sub_zero, add_zero]
    ring

/-- The vector that polarises the current, as documented: the fixed reference, the neighbour above or below,
or nothing. -/
def polariser (l : Layer ℝ) (bottom top : CVec ℝ) : CVec ℝ :=
  if l.referenceType = .FIXED then l.referenceLayer
  else if l.referenceType = .TOP then top
  else if l.referenceType = .BOTTOM then bottom
  else ⟨0, 0, 0⟩

theorem reference_eq_polariser (l : Layer ℝ) (b a : CVec ℝ) : l.reference b a = polariser l b a := by
  unfold reference polariser
  cases l.referenceType <;> simp
  ext <;> simp

/-- C12. A zero polarising vector switches off every spin torque. -/
theorem C12_zero_reference (l : Layer ℝ) (t : ℝ) (m b a : CVec ℝ) (h0 : polariser l b a = ⟨0, 0, 0⟩) :
    (l.llg t m b a).res = ((plainOf l).llg t m b a).res := by
  apply llg_res_eq
  intro hf
  have hr : l.reference b a = ⟨0, 0, 0⟩ := by rw [reference_eq_polariser, h0]
  rw [plain_value (plainOf l) rfl rfl]
  unfold solveLLG
  split
  · ext <;>
    · simp only [hr, smul, plainOf, Const.gyro, CVec.mulr_x, CVec.mulr_y, CVec.mulr_z, CVec.add_x, CVec.add_y, CVec.add_z,
        CVec.cross_x, CVec.cross_y, CVec.cross_z, Scalar.powi_real, Scalar.ofSci_real_true, Scalar.ofNat_real,
        Nat.cast_ofNat, Nat.cast_one, mul_zero, zero_div, zero_mul, neg_zero, add_zero, sub_zero]
      ring
  · split
    · ext <;>
      · simp only [hr, smul, plainOf, Const.gyro, CVec.mulr_x, CVec.mulr_y, CVec.mulr_z, CVec.add_x, CVec.add_y, CVec.add_z,
          CVec.cross_x, CVec.cross_y, CVec.cross_z, Scalar.powi_real, Scalar.ofSci_real_true, Scalar.ofNat_real,
          Nat.cast_ofNat, Nat.cast_one, mul_zero, zero_div, zero_mul, neg_zero, add_zero, sub_zero]
        ring
    · ext <;>
      · simp only [smul, plainOf, Const.gyro, CVec.mulr_x, CVec.mulr_y, CVec.mulr_z, CVec.add_x, CVec.add_y, CVec.add_z,
          CVec.cross_x, CVec.cross_y, CVec.cross_z, Scalar.powi_real, Scalar.ofSci_real_true, Scalar.ofNat_real,
          Nat.cast_ofNat, Nat.cast_one]
        ring

/-- Field-like and damping-like amplitudes of an SOT layer, as documented: drivers if dynamic, otherwise
torque constants times the current. -/
noncomputable def sotFields (l : Layer ℝ) (t : ℝ) : ℝ × ℝ :=
  if l.dynamicSOT = true then (l.fieldLikeTorqueDriver.value t, l.dampingLikeTorqueDriver.value t)
  else (l.fieldLikeTorque * l.currentDriver.value t, l.dampingLikeTorque * l.currentDriver.value t)

/-- C12. For a unit magnetisation the spin-orbit torque acts exactly as the extra effective field
`Hfl·p + Hdl·(m × p)` on the plain layer. -/
theorem C12_sot_is_effective_field (l : Layer ℝ) (t : ℝ) (m b a h : CVec ℝ) (hs : l.includeSTT = false)
    (hso : l.includeSOT = true) (hm : m.x ^ 2 + m.y ^ 2 + m.z ^ 2 = 1) :
    (l.solveLLG t m b a h).1 = ((plainOf l).solveLLG t m b a
      (h + smul (sotFields l t).1 (polariser l b a) + smul (sotFields l t).2 (m.cross (polariser l b a)))).1 := by
  rw [plain_value (plainOf l) rfl rfl]
  unfold solveLLG
  rw [if_neg (by simp [hs]), if_pos hso, reference_eq_polariser]
  generalize polariser l b a = p
  have e1 : (if l.dynamicSOT = true then l.fieldLikeTorqueDriver.value t
      else l.fieldLikeTorque * l.currentDriver.value t) = (sotFields l t).1 := by
    unfold sotFields; split <;> rfl
  have e2 : (if l.dynamicSOT = true then l.dampingLikeTorqueDriver.value t
      else l.dampingLikeTorque * l.currentDriver.value t) = (sotFields l t).2 := by
    unfold sotFields; split <;> rfl
  simp only [e1, e2]
  generalize (sotFields l t).1 = F
  generalize (sotFields l t).2 = D
  have hz : m.z ^ 2 = 1 - m.x ^ 2 - m.y ^ 2 := by linarith
  ext
  · simp only [smul, plainOf, Const.gyro, CVec.mulr_x, CVec.mulr_y, CVec.mulr_z, CVec.add_x, CVec.add_y, CVec.add_z,
      CVec.cross_x, CVec.cross_y, CVec.cross_z, Scalar.powi_real, Scalar.ofSci_real_true, Scalar.ofNat_real,
      Nat.cast_ofNat, Nat.cast_one]
    linear_combination (-(220880 / (1 + l.damping ^ 2)) * l.damping * D * (m.y * p.z - m.z * p.y)) * hm
  · simp only [smul, plainOf, Const.gyro, CVec.mulr_x, CVec.mulr_y, CVec.mulr_z, CVec.add_x, CVec.add_y, CVec.add_z,
      CVec.cross_x, CVec.cross_y, CVec.cross_z, Scalar.powi_real, Scalar.ofSci_real_true, Scalar.ofNat_real,
      Nat.cast_ofNat, Nat.cast_one]
    linear_combination (-(220880 / (1 + l.damping ^ 2)) * l.damping * D * (m.z * p.x - m.x * p.z)) * hm
  · simp only [smul, plainOf, Const.gyro, CVec.mulr_x, CVec.mulr_y, CVec.mulr_z, CVec.add_x, CVec.add_y, CVec.add_z,
      CVec.cross_x, CVec.cross_y, CVec.cross_z, Scalar.powi_real, Scalar.ofSci_real_true, Scalar.ofNat_real,
      Nat.cast_ofNat, Nat.cast_one]
    linear_combination (-(220880 / (1 + l.damping ^ 2)) * l.damping * D * (m.x * p.y - m.y * p.x)) * hm

example : (demo.includeSTT = true) ∧ ∃ t, ({ demo with currentDriver := .constantDriver 0 } : Layer ℝ).currentDriver.value t = 0 :=
  ⟨rfl, 0, by simp [ScalarDriver.value, ScalarDriver.constantDriver]⟩
example : ∃ m : CVec ℝ, m.x ^ 2 + m.y ^ 2 + m.z ^ 2 = 1 ∧
    ({ demo with includeSTT := false, includeSOT := true } : Layer ℝ).includeSOT = true :=
  ⟨⟨0, 0, 1⟩, by norm_num, rfl⟩

end Layer
