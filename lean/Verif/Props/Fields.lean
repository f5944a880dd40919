import Verif.Lemmas.Exec
import Verif.Lemmas.Layer
import Verif.Spec.Fields
import Verif.Props.Torque
import Mathlib.Analysis.Calculus.Deriv.Pow
import Mathlib.Analysis.Calculus.Deriv.MeanValue
import Mathlib.Analysis.SpecialFunctions.Trigonometric.Deriv

set_option linter.unusedSectionVars false
set_option linter.unusedSimpArgs false

/-! # C13, C14, C33: effective fields and thermal noise -/

namespace Layer
open Spec

/-! ### C13 -/

/-- helper: components of the exchange field -/
theorem iec_eq {l : Layer ℝ} {J J2 : ℝ} {m c h : CVec ℝ} (e : l.iec J J2 m c = .ok h) :
    (l.Ms ≠ 0 ∧ l.thickness ≠ 0) ∧ h = exchangeField l.Ms l.thickness J J2 m c := by
  by_cases hg : l.Guard
  · rw [iec_ok l J J2 m c hg, Except.ok.injEq] at e
    refine ⟨by simpa [Guard] using hg, ?_⟩
    rw [← e]
    ext <;>
    · simp only [iecV, CVec.divU, exchangeField, smul, CVec.mulr_x, CVec.mulr_y, CVec.mulr_z, CVec.dot,
        Scalar.ofNat_real, Nat.cast_ofNat]
      ring
  · rw [iec_err l J J2 m c hg] at e; simp at e

/-- C13. The exchange torques of a coupled pair cancel when weighted with the areal moments. -/
theorem C13_iec_torques_cancel (l1 l2 : Layer ℝ) (J J2 : ℝ) (m1 m2 h1 h2 : CVec ℝ)
    (e1 : l1.iec J J2 m1 m2 = .ok h1) (e2 : l2.iec J J2 m2 m1 = .ok h2) :
    (m1.cross h1) * (l1.Ms * l1.thickness) + (m2.cross h2) * (l2.Ms * l2.thickness) = ⟨0, 0, 0⟩ := by
  obtain ⟨⟨n1, n1'⟩, rfl⟩ := iec_eq e1
  obtain ⟨⟨n2, n2'⟩, rfl⟩ := iec_eq e2
  ext <;>
  · simp only [exchangeField, smul, CVec.mulr_x, CVec.mulr_y, CVec.mulr_z, CVec.add_x, CVec.add_y, CVec.add_z,
      CVec.cross_x, CVec.cross_y, CVec.cross_z]
    field_simp
    ring

/-- helper: derivative of the exchange energy along a line -/
theorem iecEnergy_deriv (J J2 : ℝ) (m1 m2 v : CVec ℝ) :
    HasDerivAt (fun s => iecEnergy J J2 (line m1 v s) m2)
      (-(J + 2 * J2 * (m1.x * m2.x + m1.y * m2.y + m1.z * m2.z)) * (v.x * m2.x + v.y * m2.y + v.z * m2.z)) 0 := by
  have hl : HasDerivAt (fun s : ℝ => (m1.x * m2.x + m1.y * m2.y + m1.z * m2.z)
      + s * (v.x * m2.x + v.y * m2.y + v.z * m2.z)) (v.x * m2.x + v.y * m2.y + v.z * m2.z) 0 := by
    have := ((hasDerivAt_id (0:ℝ)).mul_const (v.x * m2.x + v.y * m2.y + v.z * m2.z)).const_add
      (m1.x * m2.x + m1.y * m2.y + m1.z * m2.z)
    simpa using this
  have h2 := (hl.const_mul (-J)).sub ((hl.pow 2).const_mul J2)
  refine (h2.congr_deriv ?_).congr_of_eventuallyEq (Filter.Eventually.of_forall fun s => ?_)
  · simp; ring
  · simp only [iecEnergy, line, Pi.pow_apply, Pi.sub_apply]; ring

/-- C13. The exchange field on the first layer of a pair is the (negative, moment-weighted) gradient of the
pair energy with respect to its magnetisation, in every direction. -/
theorem C13_iec_gradient_first (l1 : Layer ℝ) (J J2 : ℝ) (m1 m2 h1 v : CVec ℝ)
    (e1 : l1.iec J J2 m1 m2 = .ok h1) :
    HasDerivAt (fun s => iecEnergy J J2 (line m1 v s) m2)
      (-(l1.Ms * l1.thickness) * (h1.x * v.x + h1.y * v.y + h1.z * v.z)) 0 := by
  obtain ⟨⟨n1, n1'⟩, rfl⟩ := iec_eq e1
  refine (iecEnergy_deriv J J2 m1 m2 v).congr_deriv ?_
  simp only [exchangeField, smul]
  field_simp

/-- C13. ... and on the second layer of the *same* energy with respect to the other magnetisation. -/
theorem C13_iec_gradient_second (l2 : Layer ℝ) (J J2 : ℝ) (m1 m2 h2 v : CVec ℝ)
    (e2 : l2.iec J J2 m2 m1 = .ok h2) :
    HasDerivAt (fun s => iecEnergy J J2 m1 (line m2 v s))
      (-(l2.Ms * l2.thickness) * (h2.x * v.x + h2.y * v.y + h2.z * v.z)) 0 := by
  have := C13_iec_gradient_first l2 J J2 m2 m1 h2 v e2
  have hs : ∀ a b, iecEnergy J J2 a b = iecEnergy J J2 b a := by intro a b; unfold iecEnergy; ring
  simpa only [hs m1] using this

/-- C13 at the level of the fields a two-layer junction computes: the lower layer with nothing below it and the
upper layer with nothing above it, coupled by the same bilinear and biquadratic values. -/
theorem C13_pair_torques_cancel (lo up lo' up' : Layer ℝ) (t : ℝ) (m1 m2 h1 h2 : CVec ℝ)
    (hJ : lo.IECDriverTop.value t = up.IECDriverBottom.value t)
    (hJ2 : lo.IECQuadDriverTop.value t = up.IECQuadDriverBottom.value t)
    (e1 : lo.calculateIEC t m1 .zero m2 = .ok h1 lo') (e2 : up.calculateIEC t m2 m1 .zero = .ok h2 up') :
    (m1.cross h1) * (lo.Ms * lo.thickness) + (m2.cross h2) * (up.Ms * up.thickness) = ⟨0, 0, 0⟩ := by
  have g1 : lo.Guard := by
    by_contra hg; obtain ⟨c, hc⟩ := lo.calculateIEC_err t m1 .zero m2 hg
    rw [hc] at e1; simp [Out.ok, Out.fail] at e1
  have g2 : up.Guard := by
    by_contra hg; obtain ⟨c, hc⟩ := up.calculateIEC_err t m2 m1 .zero hg
    rw [hc] at e2; simp [Out.ok, Out.fail] at e2
  obtain ⟨c, hc⟩ := lo.calculateIEC_ok t m1 .zero m2 g1
  obtain ⟨c', hc'⟩ := up.calculateIEC_ok t m2 m1 .zero g2
  rw [hc] at e1; rw [hc'] at e2
  simp only [Out.ok, Out.mk.injEq, Except.ok.injEq] at e1 e2
  have z1 : ∀ (l : Layer ℝ) J J2 m, l.iecV J J2 m .zero = .zero := by
    intro l J J2 m; ext <;> simp [iecV, CVec.divU]
  have k1 := C13_iec_torques_cancel lo up (lo.IECDriverTop.value t) (lo.IECQuadDriverTop.value t) m1 m2 _ _
    (iec_ok lo _ _ _ _ g1) (iec_ok up _ _ _ _ g2)
  rw [← e1.1, ← e2.1, z1, z1, ← hJ, ← hJ2]
  have a0 : ∀ v : CVec ℝ, CVec.zero + v = v := by intro v; ext <;> simp
  have a1 : ∀ v : CVec ℝ, v + CVec.zero = v := by intro v; ext <;> simp
  rw [a0, a1]; exact k1

example : ∃ h1 h2, demo.iec 1 2 ⟨0, 0, 1⟩ ⟨1, 0, 0⟩ = .ok h1 ∧ demo.iec 1 2 ⟨1, 0, 0⟩ ⟨0, 0, 1⟩ = .ok h2 :=
  ⟨_, _, iec_ok _ _ _ _ _ demo_guard, iec_ok _ _ _ _ _ demo_guard⟩

/-- helper -/
theorem idmi_eq {l : Layer ℝ} {D c h : CVec ℝ} (e : l.idmi D c = .ok h) :
    (l.Ms ≠ 0 ∧ l.thickness ≠ 0) ∧ h = idmiField l.Ms l.thickness D c := by
  by_cases hg : l.Guard
  · rw [idmi_ok l D c hg, Except.ok.injEq] at e
    refine ⟨by simpa [Guard] using hg, ?_⟩
    rw [← e]
    ext <;>
    · simp only [idmiV, CVec.divU, idmiField, smul, CVec.dot, Scalar.ofNat_real, Nat.cast_ofNat, Nat.cast_zero]
      ring
  · have : l.idmi D c = .error .divZero := CVec.div_err _ (Bool.not_eq_false _ ▸ hg)
    rw [this] at e; simp at e

/-- What C13 asks of the interlayer DMI: one energy `E` of the two magnetisations of which both fields are
the moment-weighted gradients. The condition is only imposed on pairs of in-plane unit vectors and variations
along that circle, so its failure is the stronger statement. -/
def HasCommonEnergy (l1 l2 : Layer ℝ) (D : CVec ℝ) : Prop :=
  ∃ E : CVec ℝ → CVec ℝ → ℝ, ∀ θ φ : ℝ, ∀ h1 h2 : CVec ℝ,
    l1.idmi D (planar φ) = .ok h1 → l2.idmi D (planar θ) = .ok h2 →
    HasDerivAt (fun s => E (planar s) (planar φ))
      (-(l1.Ms * l1.thickness) * (h1.x * (-Real.sin θ) + h1.y * Real.cos θ)) θ ∧
    HasDerivAt (fun s => E (planar θ) (planar s))
      (-(l2.Ms * l2.thickness) * (h2.x * (-Real.sin φ) + h2.y * Real.cos φ)) φ

/-- C13, the DMI half is false of the code: `setIDMIDriver` gives both layers the same vector `D`, and for
`D = (0,0,1)` no energy exists, whatever the two layers are. -/
theorem C13_idmi_refuted (l1 l2 : Layer ℝ) (n1 : l1.Ms * l1.thickness ≠ 0) (n2 : l2.Ms * l2.thickness ≠ 0) :
    ¬ HasCommonEnergy l1 l2 ⟨0, 0, 1⟩ := by
  rintro ⟨E, hE⟩
  have g1 : l1.Guard := by simpa [Guard] using n1
  have g2 : l2.Guard := by simpa [Guard] using n2
  obtain ⟨n1, n1'⟩ := mul_ne_zero_iff.1 n1
  obtain ⟨n2, n2'⟩ := mul_ne_zero_iff.1 n2
  have key : ∀ θ φ, HasDerivAt (fun s => E (planar s) (planar φ)) (Real.cos (φ - θ)) θ ∧
      HasDerivAt (fun s => E (planar θ) (planar s)) (Real.cos (φ - θ)) φ := by
    intro θ φ
    have i1 := idmi_ok l1 ⟨0, 0, 1⟩ (planar φ) g1
    have i2 := idmi_ok l2 ⟨0, 0, 1⟩ (planar θ) g2
    obtain ⟨-, q1⟩ := idmi_eq i1
    obtain ⟨-, q2⟩ := idmi_eq i2
    obtain ⟨d1, d2⟩ := hE θ φ _ _ i1 i2
    rw [q1] at d1; rw [q2] at d2
    refine ⟨d1.congr_deriv ?_, d2.congr_deriv ?_⟩
    · rw [Real.cos_sub]; simp only [idmiField, smul, planar]; field_simp; ring
    · rw [Real.cos_sub]; simp only [idmiField, smul, planar]; field_simp; ring
  have hconst : ∀ φ, E (planar Real.pi) (planar φ) - E (planar 0) (planar φ) = 2 * Real.sin φ := by
    intro φ
    have hd : ∀ s, HasDerivAt (fun s => E (planar s) (planar φ) + Real.sin (φ - s)) 0 s := by
      intro s
      have h2 : HasDerivAt (fun s => Real.sin (φ - s)) (Real.cos (φ - s) * -1) s := by
        have := (Real.hasDerivAt_sin (φ - s)).comp s ((hasDerivAt_id s).const_sub φ)
        exact this
      refine ((key s φ).1.add h2).congr_deriv ?_
      ring
    have hc := is_const_of_deriv_eq_zero (f := fun s => E (planar s) (planar φ) + Real.sin (φ - s))
      (fun s => (hd s).differentiableAt) (fun s => (hd s).deriv) Real.pi 0
    simp only [sub_zero, Real.sin_sub_pi] at hc
    linarith
  have e1 := (key Real.pi 0).2.sub (key 0 0).2
  have e2 : HasDerivAt (fun s => 2 * Real.sin s) (2 * Real.cos 0) 0 := (Real.hasDerivAt_sin 0).const_mul 2
  have e3 : (fun s => E (planar Real.pi) (planar s)) - (fun s => E (planar 0) (planar s))
      = fun s => 2 * Real.sin s := by
    funext s; exact hconst s
  rw [e3] at e1
  have := e1.unique e2
  simp at this
  linarith

example : demo.Ms * demo.thickness ≠ 0 := by simp [demo]

/-- C13, the part of the DMI claim that holds: with opposite vectors on the two layers (not what
`setIDMIDriver` installs) the two fields are gradients of the common energy `-D·(m₁ × m₂)`. Missing: the
claim for the fields the code installs, which `C13_idmi_refuted` disproves. -/
theorem C13_idmi_antisymmetric_partial (l1 l2 : Layer ℝ) (D m1 m2 h1 h2 v : CVec ℝ)
    (e1 : l1.idmi D m2 = .ok h1) (e2 : l2.idmi ⟨-D.x, -D.y, -D.z⟩ m1 = .ok h2) :
    HasDerivAt (fun s => -(D.dot ((line m1 v s).cross m2)))
      (-(l1.Ms * l1.thickness) * (h1.x * v.x + h1.y * v.y + h1.z * v.z)) 0 ∧
    HasDerivAt (fun s => -(D.dot (m1.cross (line m2 v s))))
      (-(l2.Ms * l2.thickness) * (h2.x * v.x + h2.y * v.y + h2.z * v.z)) 0 := by
  obtain ⟨⟨n1, n1'⟩, rfl⟩ := idmi_eq e1
  obtain ⟨⟨n2, n2'⟩, rfl⟩ := idmi_eq e2
  have lin : ∀ A B : ℝ, HasDerivAt (fun s : ℝ => A + s * B) B 0 := by
    intro A B; simpa using ((hasDerivAt_id (0:ℝ)).mul_const B).const_add A
  constructor
  · refine ((lin (-(D.dot (m1.cross m2))) (-(D.dot (v.cross m2)))).congr_deriv ?_).congr_of_eventuallyEq
      (Filter.Eventually.of_forall fun s => ?_)
    · simp only [idmiField, smul, CVec.dot, CVec.cross_x, CVec.cross_y, CVec.cross_z]; field_simp; ring
    · simp only [line, CVec.dot, CVec.cross_x, CVec.cross_y, CVec.cross_z]; ring
  · refine ((lin (-(D.dot (m1.cross m2))) (-(D.dot (m1.cross v)))).congr_deriv ?_).congr_of_eventuallyEq
      (Filter.Eventually.of_forall fun s => ?_)
    · simp only [idmiField, smul, CVec.dot, CVec.cross_x, CVec.cross_y, CVec.cross_z]; field_simp; ring
    · simp only [line, CVec.dot, CVec.cross_x, CVec.cross_y, CVec.cross_z]; ring

/-! ### C14 -/

/-- The documented sum, component by component: external, anisotropy, exchange (below and above), DMI exchange
(below and above), Oersted, DMI, fluctuation and reserved fields, minus demagnetising and stray fields. -/
noncomputable def heffSpec (l : Layer ℝ) (t : ℝ) (m bottom top fluct : CVec ℝ) (get : CVec ℝ → ℝ) : ℝ :=
  get (l.externalFieldDriver.value t) + get (anisField l.anis l.Ms (l.anisotropyDriver.value t) m)
  + get (exchangeField l.Ms l.thickness (l.IECDriverBottom.value t) (l.IECQuadDriverBottom.value t) m bottom)
  + get (exchangeField l.Ms l.thickness (l.IECDriverTop.value t) (l.IECQuadDriverTop.value t) m top)
  + get (idmiField l.Ms l.thickness (l.IDMIDriverBottom.value t) bottom)
  + get (idmiField l.Ms l.thickness (l.IDMIDriverTop.value t) top)
  + get (l.HoeDriver.value t) + get (l.HdmiDriver.value t) + get fluct + get (l.HreservedDriver.value t)
  - get (tensorField l.demagTensor l.Ms m)
  - (get (tensorField l.dipoleBottom l.Ms bottom) + get (tensorField l.dipoleTop l.Ms top))

/-- C14. The effective field is the documented sum. -/
theorem C14_sum (l : Layer ℝ) (t : ℝ) (m b a fl h : CVec ℝ) (l' : Layer ℝ)
    (e : l.calculateHeff t m b a fl = .ok h l') :
    h.x = heffSpec l t m b a fl CVec.x ∧ h.y = heffSpec l t m b a fl CVec.y ∧
      h.z = heffSpec l t m b a fl CVec.z := by
  have hg : l.Guard := by
    by_contra hg; obtain ⟨c, hc⟩ := l.heff_err t m b a fl hg
    rw [hc] at e; simp [Out.ok, Out.fail] at e
  obtain ⟨c, hc⟩ := l.heff_ok t m b a fl hg
  rw [hc] at e
  simp only [Out.ok, Out.mk.injEq, Except.ok.injEq] at e
  rw [← e.1]
  have hi : ∀ J J2 c, l.iecV J J2 m c = exchangeField l.Ms l.thickness J J2 m c :=
    fun J J2 c => (iec_eq (iec_ok l J J2 m c hg)).2
  have hd : ∀ D c, l.idmiV D c = idmiField l.Ms l.thickness D c := fun D c => (idmi_eq (idmi_ok l D c hg)).2
  have ha : ∀ K, l.anisotropyField K m = anisField l.anis l.Ms K m := by
    intro K; ext <;>
    · simp only [anisotropyField, anisField, smul, CVec.dot, CVec.mulr_x, CVec.mulr_y, CVec.mulr_z,
        Scalar.ofNat_real, Nat.cast_ofNat]
      ring
  have ht : ∀ N v, Tensor.interaction v N l.Ms = tensorField N l.Ms v := by
    intro N v; ext <;>
    · simp only [Tensor.interaction, tensorField, Const.mu0, CVec.mulr_x, CVec.mulr_y, CVec.mulr_z,
        Scalar.ofSci_real_true]
      norm_num
      ring
  simp only [heffV, dipV, hi, hd, ha, ht, heffSpec, CVec.add_x, CVec.add_y, CVec.add_z, CVec.sub_x, CVec.sub_y,
    CVec.sub_z]
  refine ⟨?_, ?_, ?_⟩ <;> ring

example : ∃ h l', demo.calculateHeff 0 ⟨0, 0, 1⟩ ⟨1, 0, 0⟩ .zero .zero = .ok h l' := by
  obtain ⟨c, hc⟩ := demo.heff_ok 0 ⟨0, 0, 1⟩ ⟨1, 0, 0⟩ .zero .zero demo_guard
  exact ⟨_, _, hc⟩

/-- helper: change of the field from a change of the sum -/
theorem heff_diff (l k : Layer ℝ) (t : ℝ) (m b a fl h h' : CVec ℝ) (l' k' : Layer ℝ) (d : CVec ℝ)
    (e : l.calculateHeff t m b a fl = .ok h l') (e' : k.calculateHeff t m b a fl = .ok h' k')
    (hx : heffSpec k t m b a fl CVec.x = heffSpec l t m b a fl CVec.x + d.x)
    (hy : heffSpec k t m b a fl CVec.y = heffSpec l t m b a fl CVec.y + d.y)
    (hz : heffSpec k t m b a fl CVec.z = heffSpec l t m b a fl CVec.z + d.z) : h' = h + d := by
  obtain ⟨x, y, z⟩ := C14_sum l t m b a fl h l' e
  obtain ⟨x', y', z'⟩ := C14_sum k t m b a fl h' k' e'
  ext
  · rw [x', hx, CVec.add_x, x]
  · rw [y', hy, CVec.add_y, y]
  · rw [z', hz, CVec.add_z, z]

/-- C14. Changing the external field driver changes the field by exactly the difference of the values. -/
theorem C14_external (l : Layer ℝ) (d : AxialDriver ℝ) (t : ℝ) (m b a fl h h' : CVec ℝ) (l' k' : Layer ℝ)
    (e : l.calculateHeff t m b a fl = .ok h l')
    (e' : (l.setExternalFieldDriver d).calculateHeff t m b a fl = .ok h' k') :
    h' = h + (d.value t - l.externalFieldDriver.value t) := by
  refine heff_diff l _ t m b a fl h h' l' k' _ e e' ?_ ?_ ?_ <;>
  · simp only [heffSpec, setExternalFieldDriver, CVec.sub_x, CVec.sub_y, CVec.sub_z]; ring

theorem C14_oersted (l : Layer ℝ) (d : AxialDriver ℝ) (t : ℝ) (m b a fl h h' : CVec ℝ) (l' k' : Layer ℝ)
    (e : l.calculateHeff t m b a fl = .ok h l')
    (e' : (l.setOerstedFieldDriver d).calculateHeff t m b a fl = .ok h' k') :
    h' = h + (d.value t - l.HoeDriver.value t) := by
  refine heff_diff l _ t m b a fl h h' l' k' _ e e' ?_ ?_ ?_ <;>
  · simp only [heffSpec, setOerstedFieldDriver, CVec.sub_x, CVec.sub_y, CVec.sub_z]; ring

theorem C14_dmi (l : Layer ℝ) (d : AxialDriver ℝ) (t : ℝ) (m b a fl h h' : CVec ℝ) (l' k' : Layer ℝ)
    (e : l.calculateHeff t m b a fl = .ok h l')
    (e' : (l.setHdmiDriver d).calculateHeff t m b a fl = .ok h' k') :
    h' = h + (d.value t - l.HdmiDriver.value t) := by
  refine heff_diff l _ t m b a fl h h' l' k' _ e e' ?_ ?_ ?_ <;>
  · simp only [heffSpec, setHdmiDriver, CVec.sub_x, CVec.sub_y, CVec.sub_z]; ring

theorem C14_reserved (l : Layer ℝ) (d : AxialDriver ℝ) (t : ℝ) (m b a fl h h' : CVec ℝ) (l' k' : Layer ℝ)
    (e : l.calculateHeff t m b a fl = .ok h l')
    (e' : (l.setReservedInteractionField d).calculateHeff t m b a fl = .ok h' k') :
    h' = h + (d.value t - l.HreservedDriver.value t) := by
  refine heff_diff l _ t m b a fl h h' l' k' _ e e' ?_ ?_ ?_ <;>
  · simp only [heffSpec, setReservedInteractionField, CVec.sub_x, CVec.sub_y, CVec.sub_z]; ring

/-- C14. The anisotropy contribution is linear in the anisotropy constant. -/
theorem C14_anisotropy (l : Layer ℝ) (d : ScalarDriver ℝ) (t : ℝ) (m b a fl h h' : CVec ℝ) (l' k' : Layer ℝ)
    (e : l.calculateHeff t m b a fl = .ok h l')
    (e' : (l.setAnisotropyDriver d).calculateHeff t m b a fl = .ok h' k') :
    h' = h + smul (2 * (d.value t - l.anisotropyDriver.value t) / l.Ms
      * (l.anis.x * m.x + l.anis.y * m.y + l.anis.z * m.z)) l.anis := by
  refine heff_diff l _ t m b a fl h h' l' k' _ e e' ?_ ?_ ?_ <;>
  · simp only [heffSpec, setAnisotropyDriver, anisField, smul]; ring

theorem C14_iecBottom (l : Layer ℝ) (d : ScalarDriver ℝ) (t : ℝ) (m b a fl h h' : CVec ℝ) (l' k' : Layer ℝ)
    (e : l.calculateHeff t m b a fl = .ok h l')
    (e' : (l.setIECDriverBottom d).calculateHeff t m b a fl = .ok h' k') :
    h' = h + smul ((d.value t - l.IECDriverBottom.value t) / (l.Ms * l.thickness)) b := by
  refine heff_diff l _ t m b a fl h h' l' k' _ e e' ?_ ?_ ?_ <;>
  · simp only [heffSpec, setIECDriverBottom, exchangeField, smul]; ring

theorem C14_iecTop (l : Layer ℝ) (d : ScalarDriver ℝ) (t : ℝ) (m b a fl h h' : CVec ℝ) (l' k' : Layer ℝ)
    (e : l.calculateHeff t m b a fl = .ok h l')
    (e' : (l.setIECDriverTop d).calculateHeff t m b a fl = .ok h' k') :
    h' = h + smul ((d.value t - l.IECDriverTop.value t) / (l.Ms * l.thickness)) a := by
  refine heff_diff l _ t m b a fl h h' l' k' _ e e' ?_ ?_ ?_ <;>
  · simp only [heffSpec, setIECDriverTop, exchangeField, smul]; ring

theorem C14_quadBottom (l : Layer ℝ) (d : ScalarDriver ℝ) (t : ℝ) (m b a fl h h' : CVec ℝ) (l' k' : Layer ℝ)
    (e : l.calculateHeff t m b a fl = .ok h l')
    (e' : (l.setQuadIECDriverBottom d).calculateHeff t m b a fl = .ok h' k') :
    h' = h + smul (2 * (d.value t - l.IECQuadDriverBottom.value t) * (b.x * m.x + b.y * m.y + b.z * m.z)
      / (l.Ms * l.thickness)) b := by
  refine heff_diff l _ t m b a fl h h' l' k' _ e e' ?_ ?_ ?_ <;>
  · simp only [heffSpec, setQuadIECDriverBottom, exchangeField, smul]; ring

theorem C14_quadTop (l : Layer ℝ) (d : ScalarDriver ℝ) (t : ℝ) (m b a fl h h' : CVec ℝ) (l' k' : Layer ℝ)
    (e : l.calculateHeff t m b a fl = .ok h l')
    (e' : (l.setQuadIECDriverTop d).calculateHeff t m b a fl = .ok h' k') :
    h' = h + smul (2 * (d.value t - l.IECQuadDriverTop.value t) * (a.x * m.x + a.y * m.y + a.z * m.z)
      / (l.Ms * l.thickness)) a := by
  refine heff_diff l _ t m b a fl h h' l' k' _ e e' ?_ ?_ ?_ <;>
  · simp only [heffSpec, setQuadIECDriverTop, exchangeField, smul]; ring

theorem C14_idmiBottom (l : Layer ℝ) (d : AxialDriver ℝ) (t : ℝ) (m b a fl h h' : CVec ℝ) (l' k' : Layer ℝ)
    (e : l.calculateHeff t m b a fl = .ok h l')
    (e' : (l.setIDMIDriverBottom d).calculateHeff t m b a fl = .ok h' k') :
    h' = h + smul (1 / (l.Ms * l.thickness)) (b.cross (d.value t - l.IDMIDriverBottom.value t)) := by
  refine heff_diff l _ t m b a fl h h' l' k' _ e e' ?_ ?_ ?_ <;>
  · simp only [heffSpec, setIDMIDriverBottom, idmiField, smul, CVec.cross_x, CVec.cross_y, CVec.cross_z,
      CVec.sub_x, CVec.sub_y, CVec.sub_z]; ring

theorem C14_idmiTop (l : Layer ℝ) (d : AxialDriver ℝ) (t : ℝ) (m b a fl h h' : CVec ℝ) (l' k' : Layer ℝ)
    (e : l.calculateHeff t m b a fl = .ok h l')
    (e' : (l.setIDMIDriverTop d).calculateHeff t m b a fl = .ok h' k') :
    h' = h + smul (1 / (l.Ms * l.thickness)) (a.cross (d.value t - l.IDMIDriverTop.value t)) := by
  refine heff_diff l _ t m b a fl h h' l' k' _ e e' ?_ ?_ ?_ <;>
  · simp only [heffSpec, setIDMIDriverTop, idmiField, smul, CVec.cross_x, CVec.cross_y, CVec.cross_z,
      CVec.sub_x, CVec.sub_y, CVec.sub_z]; ring

/-- C14. No other driver enters the field: current, torque and temperature drivers leave it unchanged. -/
theorem C14_others (l : Layer ℝ) (d : ScalarDriver ℝ) (t : ℝ) (m b a fl : CVec ℝ) :
    ((l.setCurrentDriver d).calculateHeff t m b a fl).res = (l.calculateHeff t m b a fl).res ∧
    ((l.setTemperatureDriver d).calculateHeff t m b a fl).res = (l.calculateHeff t m b a fl).res ∧
    ((l.setFieldLikeTorqueDriver d).st.calculateHeff t m b a fl).res = (l.calculateHeff t m b a fl).res ∧
    ((l.setDampingLikeTorqueDriver d).st.calculateHeff t m b a fl).res = (l.calculateHeff t m b a fl).res := by
  have key : ∀ k : Layer ℝ, k.Guard = l.Guard → (∀ m b a dip fl, k.heffV t m b a dip fl = l.heffV t m b a dip fl) →
      k.dipV b a = l.dipV b a → (k.calculateHeff t m b a fl).res = (l.calculateHeff t m b a fl).res := by
    intro k hk hv hd
    by_cases hg : l.Guard
    · obtain ⟨c, hc⟩ := l.heff_ok t m b a fl hg
      obtain ⟨c', hc'⟩ := k.heff_ok t m b a fl (hk ▸ hg)
      rw [hc, hc', Out.ok_res, Out.ok_res, hv, hd]
    · obtain ⟨c, hc⟩ := l.heff_err t m b a fl hg
      obtain ⟨c', hc'⟩ := k.heff_err t m b a fl (hk ▸ hg)
      rw [hc, hc', Out.fail_res, Out.fail_res]
  refine ⟨key _ rfl (fun _ _ _ _ _ => rfl) rfl, key _ rfl (fun _ _ _ _ _ => rfl) rfl, ?_, ?_⟩
  · unfold setFieldLikeTorqueDriver
    dsimp only
    split
    · exact key _ rfl (fun _ _ _ _ _ => rfl) rfl
    · split
      · exact key _ rfl (fun _ _ _ _ _ => rfl) rfl
      · exact key _ rfl (fun _ _ _ _ _ => rfl) rfl
  · unfold setDampingLikeTorqueDriver
    dsimp only
    split
    · exact key _ rfl (fun _ _ _ _ _ => rfl) rfl
    · split
      · exact key _ rfl (fun _ _ _ _ _ => rfl) rfl
      · exact key _ rfl (fun _ _ _ _ _ => rfl) rfl

/-! ### C33 -/

/-- C33. Strength of the thermal field. -/
theorem C33_formula (l : Layer ℝ) (t sd : ℝ) (h : l.langevinStd t = .ok sd) :
    l.cellVolume ≠ 0 ∧ sd = Real.sqrt (2 * l.damping * (1.380649 / 10 ^ 23) * l.temperatureDriver.value t
      / (l.Ms * l.cellVolume * 220880)) := by
  unfold langevinStd at h
  split at h
  · simp at h
  · rename_i hv
    simp only [Except.ok.injEq] at h
    refine ⟨by simpa [Scalar.ofSci_real_true] using hv, ?_⟩
    rw [← h]
    simp only [Const.boltzmann, Const.gyro, Scalar.sqrt_real, Scalar.ofSci_real_true, Scalar.ofNat_real,
      Nat.cast_ofNat]
    congr 1
    norm_num

/-- C33. An undefined volume is refused, and only that. -/
theorem C33_error_iff (l : Layer ℝ) (t : ℝ) (e : Err) :
    l.langevinStd t = .error e ↔ l.cellVolume = 0 ∧ e = .zeroSurface := by
  unfold langevinStd
  split
  · rename_i hv
    have : l.cellVolume = 0 := by simpa [Scalar.ofSci_real_true] using hv
    simp [this, eq_comm]
  · rename_i hv
    have : l.cellVolume ≠ 0 := by simpa [Scalar.ofSci_real_true] using hv
    simp [this]

/-- C33. Monotone in the temperature. -/
theorem C33_monotone (l : Layer ℝ) (t t' sd sd' : ℝ) (hd : 0 ≤ l.damping) (hM : 0 < l.Ms) (hV : 0 < l.cellVolume)
    (hT : l.temperatureDriver.value t ≤ l.temperatureDriver.value t')
    (h : l.langevinStd t = .ok sd) (h' : l.langevinStd t' = .ok sd') : sd ≤ sd' := by
  rw [(C33_formula l t sd h).2, (C33_formula l t' sd' h').2]
  apply Real.sqrt_le_sqrt
  apply div_le_div_of_nonneg_right _ (by positivity)
  apply mul_le_mul_of_nonneg_left hT
  positivity

/-- C33. Zero temperature, no noise. -/
theorem C33_zero_temperature (l : Layer ℝ) (t sd : ℝ) (hT : l.temperatureDriver.value t = 0)
    (h : l.langevinStd t = .ok sd) : sd = 0 := by
  rw [(C33_formula l t sd h).2, hT]; simp

/-- C33. The noise vector is three consecutive draws times the standard deviation; the draws are consumed. -/
theorem C33_vector (l : Layer ℝ) (t : ℝ) (hs : l.temperatureSet = true) (sd : ℝ) (h : l.langevinStd t = .ok sd) :
    (l.langevinVector t).res = .ok ⟨l.gauss l.gpos * sd, l.gauss (l.gpos + 1) * sd, l.gauss (l.gpos + 2) * sd⟩ ∧
    (l.langevinVector t).st.gpos = l.gpos + 3 := by
  unfold langevinVector
  simp only [hs, Bool.not_true, Bool.false_eq_true, if_false, h, Out.ok_res, Out.ok_st]
  exact ⟨rfl, rfl⟩

/-- C33. A thermal layer of zero volume raises instead of producing a vector; without temperature nothing
is drawn and the field is zero. -/
theorem C33_vector_refuses (l : Layer ℝ) (t : ℝ) (hs : l.temperatureSet = true) (hv : l.cellVolume = 0) :
    l.langevinVector t = .fail .zeroSurface l := by
  unfold langevinVector
  simp only [hs, Bool.not_true, Bool.false_eq_true, if_false, (C33_error_iff l t .zeroSurface).2 ⟨hv, rfl⟩]

theorem C33_vector_cold (l : Layer ℝ) (t : ℝ) (hs : l.temperatureSet = false) :
    l.langevinVector t = .ok ⟨0, 0, 0⟩ l := by
  unfold langevinVector
  simp only [hs, Bool.not_false, if_true]
  congr 1
  ext <;> simp

/-- C33. The stochastic torque is orthogonal to m. -/
theorem C33_torque_orthogonal (l : Layer ℝ) (m dW : CVec ℝ) :
    (l.stochasticTorque m dW).x * m.x + (l.stochasticTorque m dW).y * m.y + (l.stochasticTorque m dW).z * m.z = 0 := by
  simp only [stochasticTorque, CVec.mulr_x, CVec.mulr_y, CVec.mulr_z, CVec.add_x, CVec.add_y, CVec.add_z,
    CVec.cross_x, CVec.cross_y, CVec.cross_z]
  ring

/-- C33. The stochastic torque is the torque that the Landau-Lifshitz-Gilbert equation gives to the noise field: adding
`dW` to the effective field adds it to dm/dt, whatever other torques act. -/
theorem C33_torque_is_llg (l : Layer ℝ) (t : ℝ) (m b a h dW : CVec ℝ) :
    (l.solveLLG t m b a (h + dW)).1 = (l.solveLLG t m b a h).1 + l.stochasticTorque m dW := by
  unfold solveLLG stochasticTorque
  have h0 : (1 + l.damping ^ 2 : ℝ) ≠ 0 := by positivity
  split
  · ext <;>
    · simp only [CVec.mulr_x, CVec.mulr_y, CVec.mulr_z, CVec.add_x, CVec.add_y, CVec.add_z, CVec.cross_x, CVec.cross_y, CVec.cross_z,
        Scalar.powi_real, Scalar.ofNat_real, Nat.cast_one]
      field_simp
      ring
  · split
    · ext <;>
      · simp only [CVec.mulr_x, CVec.mulr_y, CVec.mulr_z, CVec.add_x, CVec.add_y, CVec.add_z, CVec.cross_x, CVec.cross_y, CVec.cross_z,
          Scalar.powi_real, Scalar.ofNat_real, Nat.cast_one]
        field_simp
        ring
    · ext <;>
      · simp only [CVec.mulr_x, CVec.mulr_y, CVec.mulr_z, CVec.add_x, CVec.add_y, CVec.add_z, CVec.cross_x, CVec.cross_y, CVec.cross_z,
          Scalar.powi_real, Scalar.ofNat_real, Nat.cast_one]
        field_simp
        ring

/-- C33. The volume of the formula is surface times thickness, for layers made by any of the constructors. -/
theorem C33_volume (id : String) (mag anis : CVec ℝ) (Ms thickness surface : ℝ) (N : Tensor ℝ) (damping p q r : ℝ) (g : Nat → ℝ)
    (α : Nat → Axis → Nat → Nat → ℝ) (l : Layer ℝ)
    (h : Layer.plain id mag anis Ms thickness surface N damping g α = .ok l ∨ Layer.sot id mag anis Ms thickness surface N damping p q g α = .ok l ∨
      Layer.stt id mag anis Ms thickness surface N damping p q r g α = .ok l) :
    l.cellVolume = thickness * surface ∧ l.thickness = thickness ∧ l.cellSurface = surface ∧ l.Ms = Ms ∧ l.damping = damping := by
  have hk : ∀ x y z w v, Layer.mk' id mag anis Ms thickness surface N damping x y z w v g α = .ok l →
      l.cellVolume = thickness * surface ∧ l.thickness = thickness ∧ l.cellSurface = surface ∧ l.Ms = Ms ∧ l.damping = damping := by
    intro x y z w v h
    unfold Layer.mk' at h
    split at h
    · cases h
    · split at h
      · cases h
      · cases h; exact ⟨mul_comm _ _, rfl, rfl, rfl, rfl⟩
  rcases h with h | h | h
  · exact hk _ _ _ _ _ h
  · unfold Layer.sot at h
    split at h
    · cases h
    · rename_i l0 h0
      cases h
      unfold Layer.mk' at h0
      split at h0
      · cases h0
      · split at h0
        · cases h0
        · cases h0; exact ⟨mul_comm _ _, rfl, rfl, rfl, rfl⟩
  · unfold Layer.stt at h
    split at h
    · cases h
    · rename_i l0 h0
      cases h
      unfold Layer.mk' at h0
      split at h0
      · cases h0
      · split at h0
        · cases h0
        · cases h0; exact ⟨mul_comm _ _, rfl, rfl, rfl, rfl⟩

example : ∃ sd, demo.langevinStd 0 = .ok sd := ⟨_, by simp [langevinStd, demo, Scalar.ofSci_real_true]; rfl⟩

end Layer

namespace Junction
open Layer

/-- C33. A solver step that draws thermal noise never succeeds if a thermal layer has zero volume. -/
theorem C33_steps_refuse (j j' : Junction ℝ) (t dt : ℝ) (k : Nat) (l : Layer ℝ) (hk : j.layers[k]? = some l)
    (hs : l.temperatureSet = true) (hv : l.cellVolume = 0) :
    j.heunSolverStep t dt ≠ .ok () j' ∧ j.eulerHeunSolverStep t dt ≠ .ok () j' := by
  constructor
  · intro h
    unfold heunSolverStep at h
    dsimp only at h
    rcases ht : Out.traverse (heunPredict (j.layers.map Layer.mag) t dt) 0 j.layers with ⟨r, ls⟩
    rw [ht] at h
    cases r with
    | error e => simp [Out.ok, Out.fail] at h
    | ok st =>
      refine Out.traverse_err _ 0 j.layers k l hk ?_ st ls ht
      intro b a' hb
      unfold heunPredict at hb
      obtain ⟨f, l1, hf, hb⟩ := Out.bind_eq_ok hb
      by_cases hg : l.Guard
      · obtain ⟨c, hc⟩ := l.llg_ok t l.mag (below (j.layers.map Layer.mag) (0 + k)) (above (j.layers.map Layer.mag) (0 + k)) hg
        rw [hc] at hf
        simp only [Out.ok, Out.mk.injEq] at hf
        rw [← hf.2] at hb
        rw [C33_vector_refuses (l.setCache c) t hs hv] at hb
        simp [Out.ok, Out.fail, Out.bind] at hb
      · obtain ⟨c, hc⟩ := l.llg_err t l.mag (below (j.layers.map Layer.mag) (0 + k)) (above (j.layers.map Layer.mag) (0 + k)) hg
        rw [hc] at hf; simp [Out.ok, Out.fail] at hf
  · intro h
    unfold eulerHeunSolverStep at h
    dsimp only at h
    rcases ht : Out.traverse (eulerHeunLayer (j.layers.map Layer.mag) t dt) 0 j.layers with ⟨r, ls⟩
    rw [ht] at h
    cases r with
    | error e => simp [Out.ok, Out.fail] at h
    | ok st =>
      refine Out.traverse_err _ 0 j.layers k l hk ?_ st ls ht
      intro b a' hb
      unfold eulerHeunLayer at hb
      rw [C33_vector_refuses l t hs hv] at hb
      simp [Out.ok, Out.fail, Out.bind] at hb

end Junction
