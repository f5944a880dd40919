import Verif.Lemmas.Llgb

/-! # C43: the right-hand side of the LLGB equation -/

set_option linter.unusedSectionVars false

namespace LLGBLayer
open Spec

/-- C43: the damping coefficients. -/
theorem C43_coefficients (l : LLGBLayer ℝ) (t : ℝ) :
    (l.getAlphaParallel t).1 = alphaParallel l.damping (l.temperatureDriver.value t) l.Tc ∧
    (l.getAlphaPerpendicular t).1 = alphaPerpendicular l.damping (l.temperatureDriver.value t) l.Tc := by
  constructor
  · simp only [getAlphaParallel, alphaParallel, Scalar.ofNat_real, Nat.cast_ofNat]
    rcases eq_or_ne l.Tc 0 with h | h
    · simp [h]
    · field_simp
  · simp only [getAlphaPerpendicular, alphaPerpendicular, Scalar.ofNat_real, Nat.cast_ofNat, Scalar.leb_real,
      Scalar.ofSci_real_true, decide_eq_true_eq, Nat.cast_one]
    split <;> rename_i h1
    · rw [if_neg (not_lt.2 h1)]
      rcases eq_or_ne l.Tc 0 with h | h
      · simp [h]
      · field_simp
    · rw [if_pos (not_le.1 h1)]
      rcases eq_or_ne l.Tc 0 with h | h
      · simp [h]
      · norm_num; left; field_simp

/-- C43: below the Curie temperature the coefficients are non-negative and the parallel one is at most the perpendicular
one. -/
theorem C43_below (l : LLGBLayer ℝ) (t : ℝ) (hα : 0 ≤ l.damping) (h0 : 0 ≤ l.temperatureDriver.value t)
    (hT : l.temperatureDriver.value t < l.Tc) :
    0 ≤ (l.getAlphaParallel t).1 ∧ (l.getAlphaParallel t).1 ≤ (l.getAlphaPerpendicular t).1 ∧
    (0 < l.damping → (l.getAlphaParallel t).1 < (l.getAlphaPerpendicular t).1) := by
  have hc : 0 < l.Tc := h0.trans_lt hT
  obtain ⟨e1, e2⟩ := C43_coefficients l t
  rw [e1, e2, alphaPerpendicular, if_pos hT, alphaParallel]
  have hr : l.temperatureDriver.value t / l.Tc < 1 := (div_lt_one hc).2 hT
  have hr0 : 0 ≤ l.temperatureDriver.value t / l.Tc := div_nonneg h0 hc.le
  have e3 : 2 * l.damping * l.temperatureDriver.value t / (3 * l.Tc) =
      l.damping * (2 / 3 * (l.temperatureDriver.value t / l.Tc)) := by field_simp
  have e4 : l.temperatureDriver.value t / (3 * l.Tc) = l.temperatureDriver.value t / l.Tc / 3 := by field_simp
  rw [e3, e4]
  refine ⟨by positivity, mul_le_mul_of_nonneg_left (by linarith) hα, fun h => mul_lt_mul_of_pos_left (by linarith) h⟩

/-- C43: from the Curie temperature on the two coefficients agree. -/
theorem C43_above (l : LLGBLayer ℝ) (t : ℝ) (hα : 0 ≤ l.damping) (hc : 0 < l.Tc) (hT : l.Tc ≤ l.temperatureDriver.value t) :
    (l.getAlphaPerpendicular t).1 = (l.getAlphaParallel t).1 ∧ 0 ≤ (l.getAlphaParallel t).1 := by
  obtain ⟨e1, e2⟩ := C43_coefficients l t
  rw [e1, e2, alphaPerpendicular, if_neg (not_lt.2 hT), alphaParallel]
  have : 0 ≤ l.temperatureDriver.value t := hc.le.trans hT
  exact ⟨rfl, by positivity⟩

/-- C43: the longitudinal field. -/
theorem C43_longitudinal (l : LLGBLayer ℝ) (t : ℝ) (m : CVec ℝ) :
    l.getLongitudinal t m = longitudinalField l.susceptibility l.me (l.temperatureDriver.value t) l.Tc m := by
  simp only [getLongitudinal, longitudinalField, Scalar.ofNat_real, Nat.cast_ofNat, Scalar.leb_real, decide_eq_true_eq,
    Scalar.powi_real, CVec.length_sq, Nat.cast_one]
  split
  · congr 1
    rcases eq_or_ne l.susceptibility 0 with h | h
    · simp [h]
    · field_simp
  · rename_i h1
    congr 1
    have : l.temperatureDriver.value t - l.Tc ≠ 0 := by linarith [not_le.1 h1] |> fun h : 0 < l.temperatureDriver.value t - l.Tc => h.ne'
    rcases eq_or_ne l.susceptibility 0 with h | h
    · simp [h]
    · field_simp

/-- C43: the field acting on the magnetisation: uniaxial anisotropy along the layer's axis, the external field and the
longitudinal field. -/
theorem C43_field (l : LLGBLayer ℝ) (t : ℝ) (m : CVec ℝ) :
    (l.calculateHeff t m).1 = (l.anisotropyDriver.value t * l.anis.dot m) * l.anis + l.externalFieldDriver.value t +
      longitudinalField l.susceptibility l.me (l.temperatureDriver.value t) l.Tc m := by
  rw [← C43_longitudinal]
  show l.anis * (l.anisotropyDriver.value t * l.anis.dot m) + l.externalFieldDriver.value t + l.getLongitudinal t m = _
  congr 2
  ext <;> simp [mul_comm]

/-- C43: the right-hand side is the Landau–Lifshitz–Bloch equation in that field. -/
theorem C43_equation (l : LLGBLayer ℝ) (t : ℝ) (m : CVec ℝ) :
    (l.calculateLLG t m).1 = llb Const.gyro l.damping (alphaParallel l.damping (l.temperatureDriver.value t) l.Tc)
      (alphaPerpendicular l.damping (l.temperatureDriver.value t) l.Tc) m (l.calculateHeff t m).1 := by
  obtain ⟨e1, e2⟩ := C43_coefficients l t
  rw [← e1, ← e2]
  rw [llg_fst]
  generalize (l.calculateHeff t m).1 = h
  generalize (l.getAlphaPerpendicular t).1 = a
  generalize (l.getAlphaParallel t).1 = b
  have h2 : ∀ c : ℝ, Scalar.powi (c / m.length) 2 = c ^ 2 / m.normSq := fun c => by
    rw [Scalar.powi_real, div_pow, CVec.length_sq]
  rw [h2]
  simp only [llb]
  ext <;> simp only [CVec.mull_x, CVec.mull_y, CVec.mull_z, CVec.mulr_x, CVec.mulr_y, CVec.mulr_z, CVec.add_x, CVec.add_y,
    CVec.add_z, CVec.sub_x, CVec.sub_y, CVec.sub_z, Scalar.ofNat_real, Nat.cast_one, Scalar.powi_real, one_pow] <;> ring

/-- C43: only the longitudinal term changes the length of the magnetisation: the precession and the transverse damping
drop out of the rate of `|m|²/2`. -/
theorem C43_length_rate (l : LLGBLayer ℝ) (t : ℝ) (m : CVec ℝ) (hm : m ≠ .zero) :
    m.dot (l.calculateLLG t m).1 = Const.gyro / (1 + l.damping ^ 2) *
      alphaParallel l.damping (l.temperatureDriver.value t) l.Tc * m.dot (l.calculateHeff t m).1 := by
  have hn : m.normSq ≠ 0 := fun h => hm ((CVec.normSq_eq_zero m).1 h)
  rw [C43_equation]
  generalize (l.calculateHeff t m).1 = h
  generalize alphaParallel l.damping (l.temperatureDriver.value t) l.Tc = a
  generalize alphaPerpendicular l.damping (l.temperatureDriver.value t) l.Tc = b
  simp only [llb]
  have hd := CVec.dot_cross_self m h
  have hd2 := CVec.dot_cross_self m (m.cross h)
  have e : ∀ (p q r : ℝ) (x y z : CVec ℝ), m.dot (p * (q * x - y - r * z)) = p * (q * m.dot x - m.dot y - r * m.dot z) := by
    intro p q r x y z
    simp only [CVec.dot, CVec.mull_x, CVec.mull_y, CVec.mull_z, CVec.sub_x, CVec.sub_y, CVec.sub_z]; ring
  rw [e, hd, hd2, ← CVec.normSq_eq_dot]
  field_simp
  ring

/-- No field other than the longitudinal one acts at time `t`. -/
def OnlyLongitudinal (l : LLGBLayer ℝ) (t : ℝ) : Prop :=
  l.anisotropyDriver.value t = 0 ∧ l.externalFieldDriver.value t = .zero

/-- helper -/
theorem only_long {l : LLGBLayer ℝ} {t : ℝ} (h : OnlyLongitudinal l t) (m : CVec ℝ) : (l.calculateHeff t m).1 =
    longitudinalField l.susceptibility l.me (l.temperatureDriver.value t) l.Tc m := by
  rw [C43_field, h.1, h.2]
  ext <;> simp

/-- helper -/
theorem rate_below {l : LLGBLayer ℝ} {t : ℝ} (h : OnlyLongitudinal l t) {m : CVec ℝ} (hm : m ≠ .zero)
    (hT : l.temperatureDriver.value t ≤ l.Tc) : m.dot (l.calculateLLG t m).1 = Const.gyro / (1 + l.damping ^ 2) *
      alphaParallel l.damping (l.temperatureDriver.value t) l.Tc * (m.normSq / (2 * l.susceptibility)) *
      (1 - m.normSq / l.me ^ 2) := by
  rw [C43_length_rate l t m hm, only_long h, longitudinalField, if_pos hT, CVec.dot_mull, ← CVec.normSq_eq_dot]
  ring

/-- helper -/
theorem gyro_pos : (0 : ℝ) < Const.gyro := by
  simp only [Const.gyro, Scalar.ofSci_real_true]; norm_num

/-- C43, for positive temperature (at zero temperature see `C43_zero_temperature`): without other fields and up to the Curie temperature, the length grows below the equilibrium value, shrinks above it and
is stationary at it. -/
theorem C43_relaxes_partial (l : LLGBLayer ℝ) (t : ℝ) (m : CVec ℝ) (hm : m ≠ .zero) (h : OnlyLongitudinal l t) (hα : 0 < l.damping)
    (hχ : 0 < l.susceptibility) (hme : 0 < l.me) (h0 : 0 < l.temperatureDriver.value t)
    (hT : l.temperatureDriver.value t ≤ l.Tc) :
    (0 < m.dot (l.calculateLLG t m).1 ↔ m.length < l.me) ∧ (m.dot (l.calculateLLG t m).1 < 0 ↔ l.me < m.length) ∧
    (m.dot (l.calculateLLG t m).1 = 0 ↔ m.length = l.me) := by
  have hc : 0 < l.Tc := h0.trans_le hT
  have hn : 0 < m.normSq := lt_of_le_of_ne (CVec.normSq_nonneg m) fun h => hm ((CVec.normSq_eq_zero m).1 h.symm)
  have hp : 0 < Const.gyro / (1 + l.damping ^ 2) *
      alphaParallel l.damping (l.temperatureDriver.value t) l.Tc * (m.normSq / (2 * l.susceptibility)) := by
    have := gyro_pos
    unfold alphaParallel; positivity
  rw [rate_below h hm hT]
  have hl := CVec.length_nonneg m
  have hs := CVec.length_sq m
  have hme2 : 0 < l.me ^ 2 := by positivity
  rw [mul_pos_iff_of_pos_left hp, mul_eq_zero, ← hs]
  refine ⟨?_, ?_, ?_⟩
  · rw [sub_pos, div_lt_one hme2, sq_lt_sq₀ hl hme.le]
  · rw [mul_neg_iff]
    constructor
    · rintro (⟨-, h⟩ | ⟨h, -⟩)
      · rwa [sub_neg, one_lt_div hme2, sq_lt_sq₀ hme.le hl] at h
      · exact absurd h (not_lt.2 (hs ▸ hp.le))
    · intro h; exact .inl ⟨hs ▸ hp, by rwa [sub_neg, one_lt_div hme2, sq_lt_sq₀ hme.le hl]⟩
  · rw [hs]
    constructor
    · rintro (h | h)
      · exact absurd h hp.ne'
      · have : l.me ^ 2 = m.length ^ 2 := by
          rw [sub_eq_zero, eq_comm, div_eq_one_iff_eq hme2.ne'] at h; rw [hs, h]
        exact ((sq_eq_sq₀ hme.le hl).1 this).symm
    · intro h; right; rw [← hs, h, div_self hme2.ne', sub_self]

/-- C43: at the equilibrium length and without other fields the whole right-hand side vanishes. -/
theorem C43_equilibrium (l : LLGBLayer ℝ) (t : ℝ) (m : CVec ℝ) (h : OnlyLongitudinal l t) (hm : m.length = l.me) (hme : l.me ≠ 0)
    (hT : l.temperatureDriver.value t ≤ l.Tc) : (l.calculateLLG t m).1 = .zero := by
  have hs := CVec.length_sq m
  rw [C43_equation, only_long h, longitudinalField, if_pos hT, ← hs, hm, div_self (pow_ne_zero 2 hme)]
  ext <;> simp [llb, CVec.dot]

/-- C43: above the Curie temperature the length always shrinks. -/
theorem C43_paramagnetic (l : LLGBLayer ℝ) (t : ℝ) (m : CVec ℝ) (hm : m ≠ .zero) (h : OnlyLongitudinal l t) (hα : 0 < l.damping)
    (hχ : 0 < l.susceptibility) (hc : 0 < l.Tc) (hT : l.Tc < l.temperatureDriver.value t) :
    m.dot (l.calculateLLG t m).1 < 0 := by
  have hn : 0 < m.normSq := lt_of_le_of_ne (CVec.normSq_nonneg m) fun h => hm ((CVec.normSq_eq_zero m).1 h.symm)
  have hd : 0 < l.temperatureDriver.value t - l.Tc := sub_pos.2 hT
  have h0 : 0 < l.temperatureDriver.value t := hc.trans hT
  rw [C43_length_rate l t m hm, only_long h, longitudinalField, if_neg (not_le.2 hT), CVec.dot_mull, ← CVec.normSq_eq_dot]
  have hp : 0 < Const.gyro / (1 + l.damping ^ 2) * alphaParallel l.damping (l.temperatureDriver.value t) l.Tc := by
    have := gyro_pos
    unfold alphaParallel; positivity
  refine mul_neg_of_pos_of_neg hp (mul_neg_of_neg_of_pos ?_ hn)
  exact div_neg_of_neg_of_pos (neg_neg_of_pos (by positivity)) hχ

/-- C43: at zero temperature the longitudinal term is switched off (its coefficient is zero), so the length is stationary whatever it
is. The claim of growth towards the equilibrium therefore needs a positive temperature. -/
theorem C43_zero_temperature (l : LLGBLayer ℝ) (t : ℝ) (m : CVec ℝ) (hm : m ≠ .zero) (h0 : l.temperatureDriver.value t = 0) :
    m.dot (l.calculateLLG t m).1 = 0 := by
  rw [C43_length_rate l t m hm, alphaParallel, h0]; simp

/-- A layer at 300 K with Curie temperature 700 K, equilibrium length 0.8, half magnetised. -/
noncomputable def warmLayer : LLGBLayer ℝ :=
  { temperatureDriver := .constantDriver 300, anisotropyDriver := .null, externalFieldDriver := .null, id := "free",
    mag := ⟨0, 0, 1 / 2⟩, anis := ⟨0, 0, 1⟩, Ms := 1, thickness := 1, surface := 1, volume := 1, demagTensor := [],
    damping := 1 / 10, Tc := 700, susceptibility := 1, me := 4 / 5, alphaPerpLog := 0, alphaParLog := 0, KLog := 0, TLog := 0,
    gaussA := fun _ => 0, posA := 0, gaussB := fun _ => 0, posB := 0 }

/-- The hypotheses of `C43_relaxes_partial` and `C43_below` hold for a layer made by the constructor and a setter. -/
example : (∃ l, mk' "free" ⟨0, 0, 1 / 2⟩ ⟨0, 0, 1⟩ 1 1 1 [] (1 / 10) 700 1 (4 / 5) (fun _ => 0) (fun _ => 0) = .ok l ∧
      l.setTemperatureDriver (.constantDriver 300) = warmLayer) ∧ warmLayer.mag ≠ .zero ∧ OnlyLongitudinal warmLayer 0 ∧
    0 < warmLayer.damping ∧ 0 < warmLayer.susceptibility ∧ 0 < warmLayer.me ∧ 0 < warmLayer.temperatureDriver.value 0 ∧
    warmLayer.temperatureDriver.value 0 < warmLayer.Tc ∧ 0 < warmLayer.mag.dot (warmLayer.calculateLLG 0 warmLayer.mag).1 := by
  have hT : warmLayer.temperatureDriver.value 0 = 300 := by simp [warmLayer, ScalarDriver.constantDriver, ScalarDriver.value]
  have hne : warmLayer.mag ≠ .zero := by rw [Ne, CVec.eq_zero_iff]; simp [warmLayer]
  have ho : OnlyLongitudinal warmLayer 0 := by
    constructor
    · simp [warmLayer, ScalarDriver.null, ScalarDriver.value]
    · ext <;> simp [warmLayer, AxialDriver.null, AxialDriver.value, ScalarDriver.null, ScalarDriver.value]
  have hl : warmLayer.mag.length < warmLayer.me := by
    rw [CVec.length_eq, Real.sqrt_lt' (by norm_num [warmLayer])]
    norm_num [warmLayer, CVec.normSq]
  have h1 : 0 < warmLayer.damping := by norm_num [warmLayer]
  have h2 : 0 < warmLayer.susceptibility := by norm_num [warmLayer]
  have h3 : 0 < warmLayer.me := by norm_num [warmLayer]
  have h4 : 0 < warmLayer.temperatureDriver.value 0 := by rw [hT]; norm_num
  have h5 : warmLayer.temperatureDriver.value 0 < warmLayer.Tc := by rw [hT]; norm_num [warmLayer]
  refine ⟨?_, hne, ho, h1, h2, h3, h4, h5, (C43_relaxes_partial _ 0 _ hne ho h1 h2 h3 h4 h5.le).1.2 hl⟩
  refine ⟨{ warmLayer with temperatureDriver := .null }, ?_, rfl⟩
  have e1 : (⟨0, 0, 2⁻¹⟩ : CVec ℝ).length ≠ 0 := by
    rw [Ne, CVec.length_eq_zero, CVec.eq_zero_iff]; simp
  have e2 : (⟨0, 0, 1⟩ : CVec ℝ).length ≠ 0 := by
    rw [Ne, CVec.length_eq_zero, CVec.eq_zero_iff]; simp
  simp [mk', e1, e2, warmLayer]

end LLGBLayer
