import Verif.Props.Turned
import Verif.Spec.Fields

set_option linter.unusedSectionVars false
set_option linter.unusedSimpArgs false

/-!
# C133: only products of field and time matter

A sample in which all fields, torques and temperatures are `s` times larger does the same `s` times faster. Simulated with a time step
that is `s` times shorter it goes through the same magnetisations.
-/

namespace Spec

/-- The driver `s` times stronger and `s` times faster. -/
noncomputable def quickDriver (s : ℝ) (d : ScalarDriver ℝ) : ScalarDriver ℝ :=
  { update := d.update, constantValue := s * d.constantValue, amplitude := s * d.amplitude, frequency := s * d.frequency
    phase := d.phase, period := d.period / s, cycle := d.cycle, timeStart := d.timeStart / s, timeStop := d.timeStop / s
    edgeTime := d.edgeTime / s, steadyTime := d.steadyTime / s }

/-- The same for the three components of a field. -/
noncomputable def quickAxial (s : ℝ) (d : AxialDriver ℝ) : AxialDriver ℝ := ⟨quickDriver s d.dx, quickDriver s d.dy, quickDriver s d.dz⟩

/-- A tensor `s` times larger. -/
noncomputable def quickTensor (s : ℝ) (t : Tensor ℝ) : Tensor ℝ := ⟨smul s t.r0, smul s t.r1, smul s t.r2⟩

/-- The recorded fields, couplings and currents `s` times larger. -/
noncomputable def quickLog (s : ℝ) (c : LayerLog ℝ) : LayerLog ℝ :=
  { Hext := smul s c.Hext, Hoe := smul s c.Hoe, Hdipole := smul s c.Hdipole, Hdemag := smul s c.Hdemag, HIEC := smul s c.HIEC
    Hidmi := smul s c.Hidmi, HAnis := smul s c.HAnis, Hdmi := smul s c.Hdmi, Hfl_v := smul s c.Hfl_v, Hdl_v := smul s c.Hdl_v
    Hfluctuation := smul s c.Hfluctuation, Jbottom := s * c.Jbottom, Jtop := s * c.Jtop, J2bottom := s * c.J2bottom
    J2top := s * c.J2top, K := s * c.K, I := s * c.I }

/-- The layer with fields, couplings, anisotropy, currents, torques and temperature `s` times larger and all drivers `s` times
faster. Magnetisation, saturation magnetisation, damping and sizes are the same. -/
noncomputable def quickLayer (s : ℝ) (l : Layer ℝ) : Layer ℝ :=
  { l with
    temperatureDriver := quickDriver s l.temperatureDriver
    IECDriverTop := quickDriver s l.IECDriverTop, IECDriverBottom := quickDriver s l.IECDriverBottom
    IECQuadDriverTop := quickDriver s l.IECQuadDriverTop, IECQuadDriverBottom := quickDriver s l.IECQuadDriverBottom
    IDMIDriverTop := quickAxial s l.IDMIDriverTop, IDMIDriverBottom := quickAxial s l.IDMIDriverBottom
    HreservedDriver := quickAxial s l.HreservedDriver
    currentDriver := quickDriver s l.currentDriver, anisotropyDriver := quickDriver s l.anisotropyDriver
    fieldLikeTorqueDriver := quickDriver s l.fieldLikeTorqueDriver
    dampingLikeTorqueDriver := quickDriver s l.dampingLikeTorqueDriver
    externalFieldDriver := quickAxial s l.externalFieldDriver, HoeDriver := quickAxial s l.HoeDriver
    HdmiDriver := quickAxial s l.HdmiDriver
    demagTensor := quickTensor s l.demagTensor, dipoleTop := quickTensor s l.dipoleTop, dipoleBottom := quickTensor s l.dipoleBottom
    cache := quickLog s l.cache }

end Spec

namespace ScalarDriver
open Spec

/-- helper -/
theorem erf_congr {x y : ℝ} (h : x = y) : Scalar.erf x = Scalar.erf y := by rw [h]

/-- C133 for drivers: all nine kinds. -/
theorem C133_driver {s : ℝ} (hs : 0 < s) (d : ScalarDriver ℝ) (t : ℝ) : (quickDriver s d).value (t / s) = s * d.value t := by
  have hs' : s ≠ 0 := hs.ne'
  rcases d with ⟨u, c, a, f, p, T, y, t0, t1, e, w⟩
  have hsin : 2 * Real.pi * (t / s) * (s * f) + p = 2 * Real.pi * t * f + p := by field_simp
  cases u
  · rfl
  · change s * c + pulseTrain (s * a) (t / s) (T / s) y = s * (c + pulseTrain a t T y)
    have h1 : t / s / (T / s) = t / T := div_div_div_cancel_right₀ hs' t T
    rw [mul_add]
    congr 1
    unfold pulseTrain pulseTrain?
    rw [h1]
    cases Scalar.toInt (t / T) with
    | none => simp [Scalar.ofNat_real]
    | some n =>
      dsimp only
      have e1 : Scalar.leb ((Scalar.lit (n : ℚ) : ℝ) * (T / s)) (t / s) = Scalar.leb ((Scalar.lit (n : ℚ) : ℝ) * T) t := by
        simp only [Scalar.leb_real, ← mul_div_assoc, div_le_div_iff_of_pos_right hs]
      have e2 : Scalar.leb (t / s) ((Scalar.lit (n : ℚ) : ℝ) * (T / s) + y * (T / s)) =
          Scalar.leb t ((Scalar.lit (n : ℚ) : ℝ) * T + y * T) := by
        simp only [Scalar.leb_real, ← mul_div_assoc, ← add_div, div_le_div_iff_of_pos_right hs]
      rw [e1, e2]
      split <;> simp [Scalar.ofNat_real]
  · change s * c + s * a * Real.sin (2 * Real.pi * (t / s) * (s * f) + p) = s * (c + a * Real.sin (2 * Real.pi * t * f + p))
    rw [hsin]; ring
  · change s * c + stepUpdate (s * a) (t / s) (t0 / s) (t1 / s) = s * (c + stepUpdate a t t0 t1)
    rw [mul_add]
    congr 1
    unfold stepUpdate
    simp only [Scalar.leb_real, div_le_div_iff_of_pos_right hs]
    split <;> simp [Scalar.ofNat_real]
  · change s * c + |s * a * Real.sin (2 * Real.pi * (t / s) * (s * f) + p)| = s * (c + |a * Real.sin (2 * Real.pi * t * f + p)|)
    rw [hsin, mul_assoc s, abs_mul s, abs_of_pos hs]; ring
  · have hle : (s * a * Real.sin (2 * Real.pi * (t / s) * (s * f) + p) ≤ 0) ↔ (a * Real.sin (2 * Real.pi * t * f + p) ≤ 0) := by
      rw [hsin, mul_assoc s]
      exact ⟨fun h => by by_contra h2; push Not at h2; exact absurd h (not_le.2 (mul_pos hs h2)),
        fun h => mul_nonpos_of_nonneg_of_nonpos hs.le h⟩
    simp only [value, quickDriver, Scalar.leb_real, Scalar.ofNat_real, Scalar.sin_real, Scalar.pi_real, decide_eq_true_eq, Nat.cast_zero,
      Nat.cast_ofNat, hle]
    split
    · rw [hsin]; ring
    · rfl
  · change s * c + trapezoidalUpdate (s * a) (t / s) (t0 / s) (e / s) (w / s) = s * (c + trapezoidalUpdate a t t0 e w)
    rw [mul_add]
    congr 1
    unfold trapezoidalUpdate
    have h2 : ∀ x y : ℝ, x / s + y / s = (x + y) / s := fun x y => (add_div x y s).symm
    have h3 : (2 : ℝ) * (e / s) = 2 * e / s := by ring
    have h4 : ∀ x : ℝ, s * a / (e / s) * (t / s - x / s) = s * (a / e * (t - x)) := by
      intro x
      rw [← sub_div, div_div_eq_mul_div]
      field_simp
    simp only [Scalar.ofNat_real] at *
    simp only [Scalar.leb_real, Scalar.ltb_real, Nat.cast_ofNat, h3, h2, div_le_div_iff_of_pos_right hs,
      div_lt_div_iff_of_pos_right hs, h4, decide_eq_true_eq]
    split
    · simp
    · split
      · rfl
      · split
        · rfl
        · split
          · ring
          · simp
  · change s * c + s * a * Real.exp (-((t / s - t0 / s) ^ 2) / (2 * (e / s) ^ 2)) = s * (c + a * Real.exp (-((t - t0) ^ 2) / (2 * e ^ 2)))
    have : -((t / s - t0 / s) ^ 2) / (2 * (e / s) ^ 2) = -((t - t0) ^ 2) / (2 * e ^ 2) := by
      rw [← sub_div, div_pow, div_pow, ← neg_div, ← mul_div_assoc]
      exact div_div_div_cancel_right₀ (pow_ne_zero 2 hs') _ _
    rw [this]; ring
  · have : (t / s - t0 / s) / (Real.sqrt 2 * (e / s)) = (t - t0) / (Real.sqrt 2 * e) := by
      rw [← sub_div, ← mul_div_assoc]
      exact div_div_div_cancel_right₀ hs' _ _
    have h2 := erf_congr this
    simp only [value, quickDriver, Scalar.ofNat_real, Scalar.sqrt_real, Nat.cast_ofNat, Nat.cast_one] at h2 ⊢
    rw [h2]; ring

end ScalarDriver

namespace Out
variable {σ τ α β γ δ : Type}

/-- helper: the same outcome with the result seen through `g` and the object through `F` -/
def both (g : α → β) (F : σ → τ) (x : Out σ α) : Out τ β :=
  match x with
  | ⟨.ok a, s⟩ => .ok (g a) (F s)
  | ⟨.error e, s⟩ => .fail e (F s)

/-- helper -/
theorem both_bind (g : α → β) (g' : γ → δ) (F : σ → τ) {x : Out σ α} {k : α → σ → Out σ γ} {k' : β → τ → Out τ δ}
    (h : ∀ a s, k' (g a) (F s) = (k a s).both g' F) : (x.both g F).bind k' = (x.bind k).both g' F := by
  rcases x with ⟨_ | a, s⟩
  · rfl
  · exact h a s

/-- helper -/
theorem both_traverse (g : α → β) (F : σ → τ) (f : Nat → σ → Out σ α) (f' : Nat → τ → Out τ β) (i : Nat) (as : List σ)
    (h : ∀ k a, a ∈ as → f' k (F a) = (f k a).both g F) :
    traverse f' i (as.map F) = (traverse f i as).both (List.map g) (List.map F) := by
  induction as generalizing i with
  | nil => rfl
  | cons a as ih =>
    simp only [List.map_cons, traverse]
    rw [h i a (by simp), ih (i + 1) (fun k x hx => h k x (List.mem_cons_of_mem _ hx))]
    rcases f i a with ⟨_ | b, a'⟩
    · rfl
    · rcases traverse f (i + 1) as with ⟨_ | bs, as'⟩ <;> rfl

end Out

namespace Layer
open Spec

/-- helper -/
theorem quick_value {s : ℝ} (hs : 0 < s) (d : AxialDriver ℝ) (t : ℝ) : (quickAxial s d).value (t / s) = smul s (d.value t) :=
  CVec.ext (ScalarDriver.C133_driver hs d.dx t) (ScalarDriver.C133_driver hs d.dy t) (ScalarDriver.C133_driver hs d.dz t)

/-- helper -/
theorem vsmul_add (s : ℝ) (a b : CVec ℝ) : smul s a + smul s b = smul s (a + b) :=
  CVec.ext (mul_add s a.x b.x).symm (mul_add s a.y b.y).symm (mul_add s a.z b.z).symm

/-- helper -/
theorem vsmul_sub (s : ℝ) (a b : CVec ℝ) : smul s a - smul s b = smul s (a - b) :=
  CVec.ext (mul_sub s a.x b.x).symm (mul_sub s a.y b.y).symm (mul_sub s a.z b.z).symm

/-- helper -/
theorem vsmul_mul (s : ℝ) (a : CVec ℝ) (c : ℝ) : smul s a * c = smul s (a * c) :=
  CVec.ext (mul_assoc s a.x c) (mul_assoc s a.y c) (mul_assoc s a.z c)

/-- helper -/
theorem mul_smul' (s : ℝ) (a : CVec ℝ) (c : ℝ) : a * (s * c) = smul s (a * c) :=
  CVec.ext (mul_left_comm a.x s c) (mul_left_comm a.y s c) (mul_left_comm a.z s c)

/-- helper -/
theorem vsmul_cross (s : ℝ) (a b : CVec ℝ) : a.cross (smul s b) = smul s (a.cross b) := by
  refine CVec.ext ?_ ?_ ?_ <;> simp only [CVec.cross, smul] <;> ring

/-- helper -/
theorem vsmul_zero (s : ℝ) : smul s CVec.zero = CVec.zero := by
  simp [smul, CVec.zero]

/-- helper -/
theorem vsmul_div (s : ℝ) (v : CVec ℝ) (c : ℝ) : (smul s v).div c = (v.div c).map (smul s) := by
  unfold CVec.div
  split
  · rfl
  · refine congrArg Except.ok (CVec.ext ?_ ?_ ?_) <;> exact mul_div_assoc s _ c

/-- helper -/
theorem quick_interaction (s : ℝ) (m : CVec ℝ) (t : Tensor ℝ) (Ms : ℝ) :
    Tensor.interaction m (quickTensor s t) Ms = smul s (Tensor.interaction m t Ms) := by
  unfold Tensor.interaction
  refine CVec.ext ?_ ?_ ?_
  · change (s * t.r0.x * m.x + s * t.r0.y * m.y + s * t.r0.z * m.z) * (Ms / Const.mu0) =
      s * ((t.r0.x * m.x + t.r0.y * m.y + t.r0.z * m.z) * (Ms / Const.mu0))
    ring
  · change (s * t.r1.x * m.x + s * t.r1.y * m.y + s * t.r1.z * m.z) * (Ms / Const.mu0) =
      s * ((t.r1.x * m.x + t.r1.y * m.y + t.r1.z * m.z) * (Ms / Const.mu0))
    ring
  · change (s * t.r2.x * m.x + s * t.r2.y * m.y + s * t.r2.z * m.z) * (Ms / Const.mu0) =
      s * ((t.r2.x * m.x + t.r2.y * m.y + t.r2.z * m.z) * (Ms / Const.mu0))
    ring

/-- helper -/
theorem quick_anis (s : ℝ) (l : Layer ℝ) (K : ℝ) (m : CVec ℝ) : l.anisotropyField (s * K) m = smul s (l.anisotropyField K m) := by
  unfold anisotropyField
  have : (2 : ℝ) * (s * K) * l.anis.dot m / l.Ms = s * (2 * K * l.anis.dot m / l.Ms) := by ring
  simp only [Scalar.ofNat_real, Nat.cast_ofNat]
  rw [this, mul_smul']

/-- helper -/
theorem quick_iec_ (s : ℝ) (l : Layer ℝ) (J J2 : ℝ) (m c : CVec ℝ) : l.iec (s * J) (s * J2) m c = (l.iec J J2 m c).map (smul s) := by
  unfold iec
  have : s * J + 2 * (s * J2) * c.dot m = s * (J + 2 * J2 * c.dot m) := by ring
  simp only [Scalar.ofNat_real, Nat.cast_ofNat]
  rw [this, mul_smul', vsmul_div]

/-- helper -/
theorem quick_idmi_ (s : ℝ) (l : Layer ℝ) (D c : CVec ℝ) : l.idmi (smul s D) c = (l.idmi D c).map (smul s) := by
  unfold idmi
  dsimp only
  rw [← vsmul_div]
  congr 1
  refine CVec.ext ?_ ?_ ?_ <;> simp only [CVec.dot, smul] <;> ring

/-- helper -/
theorem quick_iec {s : ℝ} (hs : 0 < s) (l : Layer ℝ) (t : ℝ) (m b a : CVec ℝ) :
    (quickLayer s l).calculateIEC (t / s) m b a = (l.calculateIEC t m b a).both (smul s) (quickLayer s) := by
  unfold calculateIEC
  dsimp only [quickLayer]
  simp only [ScalarDriver.C133_driver hs]
  have e1 : ∀ J J2 m c, (quickLayer s l).iec J J2 m c = l.iec J J2 m c := fun _ _ _ _ => rfl
  simp only [quickLayer] at e1
  simp only [e1, quick_iec_]
  cases l.iec (l.IECDriverBottom.value t) (l.IECQuadDriverBottom.value t) m b with
  | error e => rfl
  | ok u =>
    cases l.iec (l.IECDriverTop.value t) (l.IECQuadDriverTop.value t) m a with
    | error e' => rfl
    | ok v => simp only [Except.map, vsmul_add]; rfl

/-- helper -/
theorem quick_idmi {s : ℝ} (hs : 0 < s) (l : Layer ℝ) (t : ℝ) (b a : CVec ℝ) :
    (quickLayer s l).calculateIDMI (t / s) b a = (l.calculateIDMI t b a).map (smul s) := by
  unfold calculateIDMI
  dsimp only [quickLayer]
  simp only [quick_value hs]
  have e1 : ∀ D c, (quickLayer s l).idmi D c = l.idmi D c := fun _ _ => rfl
  simp only [quickLayer] at e1
  simp only [e1, quick_idmi_]
  cases l.idmi (l.IDMIDriverBottom.value t) b with
  | error e => rfl
  | ok u =>
    cases l.idmi (l.IDMIDriverTop.value t) a with
    | error e' => rfl
    | ok v => simp only [Except.map, vsmul_add]

/-- helper -/
theorem quick_heffD {s : ℝ} (hs : 0 < s) (l : Layer ℝ) (t : ℝ) (m b a d f : CVec ℝ) :
    (quickLayer s l).calculateHeffDipoleInjection (t / s) m b a (smul s d) (smul s f) =
      (l.calculateHeffDipoleInjection t m b a d f).both (smul s) (quickLayer s) := by
  unfold calculateHeffDipoleInjection
  have e1 : (quickLayer s l).externalFieldDriver.value (t / s) = smul s (l.externalFieldDriver.value t) := quick_value hs _ t
  have e2 : (quickLayer s l).HoeDriver.value (t / s) = smul s (l.HoeDriver.value t) := quick_value hs _ t
  have e3 : Tensor.interaction m (quickLayer s l).demagTensor (quickLayer s l).Ms = smul s (Tensor.interaction m l.demagTensor l.Ms) :=
    quick_interaction s m _ _
  rw [e1, e2, e3]
  refine (congrArg (fun x => Out.bind x _) (quick_iec hs (l.setCache (({ l.cache with
    Hext := l.externalFieldDriver.value t, Hoe := l.HoeDriver.value t,
    Hdemag := Tensor.interaction m l.demagTensor l.Ms } : LayerLog ℝ))) t m b a)).trans ?_
  refine Out.both_bind (smul s) (smul s) (quickLayer s) fun H q => ?_
  have e4 := quick_idmi hs (q.setCache ({ q.cache with HIEC := H } : LayerLog ℝ)) t b a
  cases h : (q.setCache ({ q.cache with HIEC := H } : LayerLog ℝ)).calculateIDMI t b a with
  | error e =>
    rw [h] at e4
    have e5 : ((quickLayer s q).setCache ({ (quickLayer s q).cache with HIEC := smul s H } : LayerLog ℝ)).calculateIDMI (t / s) b a = .error e := e4
    simp only [h, e5]; rfl
  | ok v =>
    rw [h] at e4
    have e5 : ((quickLayer s q).setCache ({ (quickLayer s q).cache with HIEC := smul s H } : LayerLog ℝ)).calculateIDMI (t / s) b a = .ok (smul s v) := e4
    simp only [h, e5]
    have e6 : ((quickLayer s q).setCache ({ (quickLayer s q).cache with HIEC := smul s H } : LayerLog ℝ)).anisotropyDriver.value (t / s) =
      s * q.anisotropyDriver.value t := ScalarDriver.C133_driver hs _ t
    have e7 : ((quickLayer s q).setCache ({ (quickLayer s q).cache with HIEC := smul s H } : LayerLog ℝ)).HdmiDriver.value (t / s) =
      smul s (q.HdmiDriver.value t) := quick_value hs _ t
    have e8 : ((quickLayer s q).setCache ({ (quickLayer s q).cache with HIEC := smul s H } : LayerLog ℝ)).HreservedDriver.value (t / s) =
      smul s (q.HreservedDriver.value t) := quick_value hs _ t
    rw [e6, e7, e8, quick_anis]
    simp only [vsmul_add, vsmul_sub]
    rfl

/-- helper -/
theorem quick_heff {s : ℝ} (hs : 0 < s) (l : Layer ℝ) (t : ℝ) (m b a f : CVec ℝ) :
    (quickLayer s l).calculateHeff (t / s) m b a (smul s f) = (l.calculateHeff t m b a f).both (smul s) (quickLayer s) := by
  have e : Tensor.interaction b (quickLayer s l).dipoleBottom (quickLayer s l).Ms +
      Tensor.interaction a (quickLayer s l).dipoleTop (quickLayer s l).Ms =
    smul s (Tensor.interaction b l.dipoleBottom l.Ms + Tensor.interaction a l.dipoleTop l.Ms) := by
    rw [← vsmul_add, ← quick_interaction, ← quick_interaction]; rfl
  unfold calculateHeff
  simp only [e]
  generalize Tensor.interaction b l.dipoleBottom l.Ms + Tensor.interaction a l.dipoleTop l.Ms = D
  exact quick_heffD hs (l.setCache ({ l.cache with Hdipole := D } : LayerLog ℝ)) t m b a D f

/-- helper -/
theorem quick_solve {s : ℝ} (hs : 0 < s) (l : Layer ℝ) (t : ℝ) (m b a h : CVec ℝ) :
    (quickLayer s l).solveLLG (t / s) m b a (smul s h) = (smul s (l.solveLLG t m b a h).1, quickLayer s (l.solveLLG t m b a h).2) := by
  have hr : (quickLayer s l).reference b a = l.reference b a := rfl
  have e1 : (quickLayer s l).currentDriver.value (t / s) = s * l.currentDriver.value t := ScalarDriver.C133_driver hs _ t
  have e2 : (quickLayer s l).dampingLikeTorqueDriver.value (t / s) = s * l.dampingLikeTorqueDriver.value t := ScalarDriver.C133_driver hs _ t
  have e3 : (quickLayer s l).fieldLikeTorqueDriver.value (t / s) = s * l.fieldLikeTorqueDriver.value t := ScalarDriver.C133_driver hs _ t
  unfold solveLLG
  rw [hr]
  by_cases h1 : l.includeSTT = true
  · rw [if_pos h1, if_pos (show (quickLayer s l).includeSTT = true from h1)]
    dsimp only
    rw [e1]
    refine Prod.ext ?_ rfl
    change ((m.cross (smul s h) + m.cross (m.cross (smul s h)) * l.damping) * (-Const.gyro : ℝ) +
      m.cross (m.cross (l.reference b a)) * (-(Const.gyro * (Const.hbar * (s * l.currentDriver.value t) / (Const.electronCharge * l.Ms * l.thickness)) *
        l.sttEta m (l.reference b a))) * l.kappa + m.cross (l.reference b a) * (Const.gyro * (Const.hbar * (s * l.currentDriver.value t) / (Const.electronCharge * l.Ms * l.thickness)) *
        l.sttEta m (l.reference b a)) * l.beta) * _ = smul s _
    have e : (Const.gyro * (Const.hbar * (s * l.currentDriver.value t) / (Const.electronCharge * l.Ms * l.thickness)) *
        l.sttEta m (l.reference b a) : ℝ) = s * (Const.gyro * (Const.hbar * (l.currentDriver.value t) / (Const.electronCharge * l.Ms * l.thickness)) *
        l.sttEta m (l.reference b a)) := by ring
    rw [e, ← mul_neg]
    simp only [vsmul_cross, mul_smul', vsmul_mul, vsmul_add]
    rfl
  · rw [if_neg h1, if_neg (show ¬(quickLayer s l).includeSTT = true from h1)]
    by_cases h2 : l.includeSOT = true
    · rw [if_pos h2, if_pos (show (quickLayer s l).includeSOT = true from h2)]
      dsimp only
      rw [e1, e2, e3]
      have d1 : (if (quickLayer s l).dynamicSOT = true then s * l.dampingLikeTorqueDriver.value t
          else (quickLayer s l).dampingLikeTorque * (s * l.currentDriver.value t)) =
          s * (if l.dynamicSOT = true then l.dampingLikeTorqueDriver.value t else l.dampingLikeTorque * l.currentDriver.value t) := by
        change (if l.dynamicSOT = true then _ else l.dampingLikeTorque * (s * l.currentDriver.value t)) = _
        split
        · rfl
        · ring
      have d2 : (if (quickLayer s l).dynamicSOT = true then s * l.fieldLikeTorqueDriver.value t
          else (quickLayer s l).fieldLikeTorque * (s * l.currentDriver.value t)) =
          s * (if l.dynamicSOT = true then l.fieldLikeTorqueDriver.value t else l.fieldLikeTorque * l.currentDriver.value t) := by
        change (if l.dynamicSOT = true then _ else l.fieldLikeTorque * (s * l.currentDriver.value t)) = _
        split
        · rfl
        · ring
      have d3 : (if (quickLayer s l).dynamicSOT = true then (quickLayer s l).cache.I else s * l.currentDriver.value t) =
          s * (if l.dynamicSOT = true then l.cache.I else l.currentDriver.value t) := by
        change (if l.dynamicSOT = true then s * l.cache.I else _) = _
        split <;> rfl
      rw [d1, d2, d3]
      generalize (if l.dynamicSOT = true then l.dampingLikeTorqueDriver.value t else l.dampingLikeTorque * l.currentDriver.value t) = Hd
      generalize (if l.dynamicSOT = true then l.fieldLikeTorqueDriver.value t else l.fieldLikeTorque * l.currentDriver.value t) = Hf
      have k1 : s * Hf - (quickLayer s l).damping * (s * Hd) = s * (Hf - l.damping * Hd) := by
        change s * Hf - l.damping * (s * Hd) = _
        ring
      have k2 : s * Hd + (quickLayer s l).damping * (s * Hf) = s * (Hd + l.damping * Hf) := by
        change s * Hd + l.damping * (s * Hf) = _
        ring
      simp only [k1, k2, vsmul_cross, mul_smul', vsmul_mul, vsmul_add]
      rfl
    · rw [if_neg h2, if_neg (show ¬(quickLayer s l).includeSOT = true from h2)]
      simp only [vsmul_cross, vsmul_mul, vsmul_add]
      rfl

/-- helper -/
theorem quick_llg {s : ℝ} (hs : 0 < s) (l : Layer ℝ) (t : ℝ) (m b a : CVec ℝ) :
    (quickLayer s l).llg (t / s) m b a = (l.llg t m b a).both (smul s) (quickLayer s) := by
  unfold llg
  have := quick_heff hs l t m b a CVec.zero
  rw [vsmul_zero] at this
  rw [this]
  refine Out.both_bind _ _ _ fun h q => ?_
  rw [quick_solve hs]; rfl

/-- helper -/
theorem quick_step {s : ℝ} (hs : 0 < s) (v : CVec ℝ) (dt : ℝ) : smul s v * (dt / s) = v * dt := by
  refine CVec.ext ?_ ?_ ?_
  · change s * v.x * (dt / s) = v.x * dt
    field_simp
  · change s * v.y * (dt / s) = v.y * dt
    field_simp
  · change s * v.z * (dt / s) = v.z * dt
    field_simp

/-- helper -/
theorem quick_rk4 {s : ℝ} (hs : 0 < s) (l : Layer ℝ) (t dt : ℝ) (b a : CVec ℝ) :
    (quickLayer s l).rk4Step (t / s) (dt / s) b a = (l.rk4Step t dt b a).both _root_.id (quickLayer s) := by
  have h1 : ∀ c : ℝ, t / s + c * (dt / s) = (t + c * dt) / s := fun c => by ring
  have h2 : t / s + dt / s = (t + dt) / s := (add_div t dt s).symm
  unfold rk4Step
  dsimp only
  rw [quick_llg hs]
  refine Out.both_bind _ _ _ fun f1 q => ?_
  rw [h1, quick_step hs, quick_llg hs]
  refine Out.both_bind _ _ _ fun f2 q => ?_
  rw [quick_step hs, quick_llg hs]
  refine Out.both_bind _ _ _ fun f3 q => ?_
  rw [h2, quick_step hs, quick_llg hs]
  refine Out.both_bind _ _ _ fun f4 q => ?_
  rw [quick_step hs, if_neg (by simp), if_neg (by simp)]
  rfl

/-- helper -/
theorem quick_langevin {s : ℝ} (hs : 0 < s) (l : Layer ℝ) (t : ℝ) :
    (quickLayer s l).langevinVector (t / s) = (l.langevinVector t).both (smul (Real.sqrt s)) (quickLayer s) := by
  have e : (quickLayer s l).langevinStd (t / s) = (l.langevinStd t).map (Real.sqrt s * ·) := by
    unfold langevinStd
    have e1 : (quickLayer s l).temperatureDriver.value (t / s) = s * l.temperatureDriver.value t := ScalarDriver.C133_driver hs _ t
    rw [e1]
    change (if Scalar.eqb l.cellVolume 0.0 = true then _ else _) = _
    split
    · rfl
    · refine congrArg Except.ok ?_
      have : (2 * l.damping * Const.boltzmann * (s * l.temperatureDriver.value t) / (l.Ms * l.cellVolume * Const.gyro) : ℝ) =
        s * (2 * l.damping * Const.boltzmann * l.temperatureDriver.value t / (l.Ms * l.cellVolume * Const.gyro)) := by ring
      simp only [Scalar.ofNat_real, Scalar.sqrt_real] at this ⊢
      change Real.sqrt (((2 : ℕ) : ℝ) * l.damping * Const.boltzmann * (s * l.temperatureDriver.value t) / (l.Ms * l.cellVolume * Const.gyro)) = _
      rw [Nat.cast_ofNat, this, Real.sqrt_mul hs.le]
  unfold langevinVector
  rw [e]
  by_cases h : l.temperatureSet = true
  · simp only [show (quickLayer s l).temperatureSet = true from h, h]
    cases l.langevinStd t with
    | error e => rfl
    | ok sd =>
      simp only [Except.map]
      rw [mul_smul']; rfl
  · simp only [show (quickLayer s l).temperatureSet = l.temperatureSet from rfl, h]
    have : smul (Real.sqrt s) (CVec.zero : CVec ℝ) = CVec.zero := vsmul_zero _
    simp only [Bool.not_false, if_true, Out.both, Out.ok, this]

/-- helper -/
theorem quick_oneF (s : ℝ) (l : Layer ℝ) (h : l.noiseParams.scaleNoise = 0) :
    (quickLayer s l).oneFVector = l.oneFVector.both (smul (Real.sqrt s)) (quickLayer s) := by
  have e : ∀ q : Layer ℝ, q.noiseParams.scaleNoise = 0 → q.oneFVector = .ok .zero q := fun q hq => by unfold oneFVector; simp [hq]
  rw [e l h, e (quickLayer s l) h]
  have : smul (Real.sqrt s) (CVec.zero : CVec ℝ) = CVec.zero := vsmul_zero _
  simp only [Out.both, Out.ok, this]

/-- helper -/
theorem quick_torque (c s : ℝ) (l : Layer ℝ) (m w : CVec ℝ) :
    (quickLayer s l).stochasticTorque m (smul c w) = smul c (l.stochasticTorque m w) := by
  unfold stochasticTorque
  simp only [vsmul_cross, vsmul_mul, vsmul_add]
  rfl

/-- helper -/
theorem quick_kick {s : ℝ} (hs : 0 < s) (v : CVec ℝ) (dt : ℝ) : smul (Real.sqrt s) v * Real.sqrt (dt / s) = v * Real.sqrt dt := by
  have h : Real.sqrt s ≠ 0 := (Real.sqrt_pos.2 hs).ne'
  have e : Real.sqrt (dt / s) = Real.sqrt dt / Real.sqrt s := Real.sqrt_div' dt hs.le
  rw [e]
  refine CVec.ext ?_ ?_ ?_
  · change Real.sqrt s * v.x * (Real.sqrt dt / Real.sqrt s) = v.x * Real.sqrt dt
    field_simp
  · change Real.sqrt s * v.y * (Real.sqrt dt / Real.sqrt s) = v.y * Real.sqrt dt
    field_simp
  · change Real.sqrt s * v.z * (Real.sqrt dt / Real.sqrt s) = v.z * Real.sqrt dt
    field_simp

end Layer

namespace Out
variable {σ τ α β γ δ : Type}

/-- helper -/
theorem both_bind' (g : α → β) (g' : γ → δ) (F : σ → τ) {x : Out σ α} {k : α → σ → Out σ γ} {k' : β → τ → Out τ δ}
    (h : ∀ a s, x = .ok a s → k' (g a) (F s) = (k a s).both g' F) : (x.both g F).bind k' = (x.bind k).both g' F := by
  rcases x with ⟨_ | a, s⟩
  · rfl
  · exact h a s rfl

/-- helper -/
theorem both_ok {g : α → β} {F : σ → τ} {x : Out σ α} {a : α} {s : σ} (h : x = .ok a s) : x.both g F = .ok (g a) (F s) := by
  rw [h]; rfl

end Out

namespace Junction
open Spec Layer

/-- helper -/
noncomputable def quickStage (s : ℝ) (x : HeunStage ℝ) : HeunStage ℝ := ⟨smul s x.fn, smul (Real.sqrt s) x.gn, smul (Real.sqrt s) x.dW, x.mNext⟩

/-- helper -/
theorem langevin_scale {l l' : Layer ℝ} {t : ℝ} {v : CVec ℝ} (h : l.langevinVector t = .ok v l') : l'.noiseParams = l.noiseParams := by
  unfold langevinVector at h
  split at h
  · simp only [Out.ok, Out.mk.injEq] at h
    rw [← h.2]
  · split at h
    · simp [Out.ok, Out.fail] at h
    · simp only [Out.ok, Out.mk.injEq] at h
      rw [← h.2]; rfl

/-- helper -/
theorem quick_mags (s : ℝ) (ls : List (Layer ℝ)) : (ls.map (quickLayer s)).map Layer.mag = ls.map Layer.mag := by
  rw [List.map_map]; rfl

/-- helper -/
theorem quick_euler {s : ℝ} (hs : 0 < s) (mags : List (CVec ℝ)) (t dt : ℝ) (i : Nat) (l : Layer ℝ) (h0 : l.noiseParams.scaleNoise = 0) :
    eulerHeunLayer mags (t / s) (dt / s) i (quickLayer s l) = (eulerHeunLayer mags t dt i l).both _root_.id (quickLayer s) := by
  unfold eulerHeunLayer
  dsimp only
  rw [quick_langevin hs]
  refine Out.both_bind' _ _ _ fun d1 q hq => ?_
  rw [quick_oneF s q (by rw [langevin_scale hq, h0])]
  refine Out.both_bind' _ _ _ fun d2 q2 _ => ?_
  rw [show (quickLayer s q2).mag = q2.mag from rfl, quick_llg hs]
  refine Out.both_bind' _ _ _ fun f q3 _ => ?_
  have e : ∀ x : ℝ, Scalar.sqrt x = Real.sqrt x := fun _ => rfl
  simp only [e, show (quickLayer s q3).mag = q3.mag from rfl, vsmul_add, quick_torque, quick_step hs, quick_kick hs]
  have e2 : ∀ c : ℝ, ∀ v : CVec ℝ, c * smul (Real.sqrt s) v = smul (Real.sqrt s) (c * v) := fun c v =>
    CVec.ext (mul_left_comm c (Real.sqrt s) v.x) (mul_left_comm c (Real.sqrt s) v.y) (mul_left_comm c (Real.sqrt s) v.z)
  simp only [e2, quick_kick hs]
  rfl

/-- helper -/
theorem quick_predict {s : ℝ} (hs : 0 < s) (mags : List (CVec ℝ)) (t dt : ℝ) (i : Nat) (l : Layer ℝ) (h0 : l.noiseParams.scaleNoise = 0) :
    heunPredict mags (t / s) (dt / s) i (quickLayer s l) = (heunPredict mags t dt i l).both (quickStage s) (quickLayer s) := by
  unfold heunPredict
  rw [show (quickLayer s l).mag = l.mag from rfl, quick_llg hs]
  refine Out.both_bind' _ _ _ fun f q hq => ?_
  rw [quick_langevin hs]
  refine Out.both_bind' _ _ _ fun d1 q1 hq1 => ?_
  have hp : q.noiseParams = l.noiseParams := by
    obtain ⟨_, _, _, _, _, hm⟩ := llg_same l t l.mag (below mags i) (above mags i)
    rw [hq] at hm
    rw [show q = _ from hm]
  rw [quick_oneF s q1 (by rw [langevin_scale hq1, hp, h0])]
  refine Out.both_bind' _ _ _ fun d2 q2 _ => ?_
  have e : ∀ x : ℝ, Scalar.sqrt x = Real.sqrt x := fun _ => rfl
  simp only [e, show (quickLayer s q2).mag = q2.mag from rfl, vsmul_add, quick_torque, quick_step hs, quick_kick hs]
  rfl

/-- helper -/
theorem quick_correct {s : ℝ} (hs : 0 < s) (st : List (HeunStage ℝ)) (t dt : ℝ) (i : Nat) (l : Layer ℝ) :
    heunCorrect (st.map (quickStage s)) (t / s) (dt / s) i (quickLayer s l) = (heunCorrect st t dt i l).both _root_.id (quickLayer s) := by
  unfold heunCorrect
  rw [List.getElem?_map]
  cases st[i]? with
  | none => rfl
  | some x =>
    have hn : (st.map (quickStage s)).map HeunStage.mNext = st.map HeunStage.mNext := by rw [List.map_map]; rfl
    dsimp only [Option.map_some]
    rw [hn, ← add_div, show (quickStage s x).mNext = x.mNext from rfl, quick_llg hs]
    refine Out.both_bind' _ _ _ fun f q _ => ?_
    have e : ∀ x : ℝ, Scalar.sqrt x = Real.sqrt x := fun _ => rfl
    have e2 : ∀ c : ℝ, ∀ v : CVec ℝ, c * smul (Real.sqrt s) v = smul (Real.sqrt s) (c * v) := fun c v =>
      CVec.ext (mul_left_comm c (Real.sqrt s) v.x) (mul_left_comm c (Real.sqrt s) v.y) (mul_left_comm c (Real.sqrt s) v.z)
    have e3 : ∀ c : ℝ, ∀ v : CVec ℝ, (c * (dt / s)) * smul s v = (c * dt) * v := fun c v => by
      refine CVec.ext ?_ ?_ ?_
      · change c * (dt / s) * (s * v.x) = c * dt * v.x
        field_simp
      · change c * (dt / s) * (s * v.y) = c * dt * v.y
        field_simp
      · change c * (dt / s) * (s * v.z) = c * dt * v.z
        field_simp
    simp only [e, show (quickLayer s q).mag = q.mag from rfl, show (quickStage s x).fn = smul s x.fn from rfl,
      show (quickStage s x).gn = smul (Real.sqrt s) x.gn from rfl, show (quickStage s x).dW = smul (Real.sqrt s) x.dW from rfl,
      vsmul_add, quick_torque, quick_kick hs, e2, e3]
    rfl

/-- helper -/
theorem quick_store (s : ℝ) (ls : List (Layer ℝ)) (ms : List (CVec ℝ)) :
    storeMags (ls.map (quickLayer s)) ms = (storeMags ls ms).map (quickLayer s) := by
  induction ls generalizing ms with
  | nil => cases ms <;> rfl
  | cons l ls ih =>
    cases ms with
    | nil => rfl
    | cons m ms => simp only [List.map_cons, storeMags, ih]; rfl

/-- C133, one step of any solver, thermal noise included (no coloured noise): the quick sample makes, in the shorter step, the same
step. -/
theorem C133_step {s : ℝ} (hs : 0 < s) {j j' k : Junction ℝ} {r : Runner} {t dt : ℝ} (h0 : ∀ l ∈ j.layers, l.noiseParams.scaleNoise = 0)
    (hj : j'.layers = j.layers.map (quickLayer s)) (h : j.runStep r t dt = .ok () k) :
    ∃ k', j'.runStep r (t / s) (dt / s) = .ok () k' ∧ k'.layers = k.layers.map (quickLayer s) := by
  cases r with
  | single =>
    simp only [runStep, runSingleLayerSolver] at h ⊢
    rw [hj]
    cases hl : j.layers with
    | nil => rw [hl] at h; simp [Out.ok, Out.fail] at h
    | cons l ls =>
      rw [hl] at h
      simp only [List.map_cons]
      rw [quick_rk4 hs]
      rcases hx : l.rk4Step t dt .zero .zero with ⟨r, l'⟩
      dsimp only at h
      rw [hx] at h
      simp only [Out.ok, Out.mk.injEq] at h
      obtain ⟨rfl, rfl⟩ := h
      exact ⟨_, rfl, rfl⟩
  | multi =>
    simp only [runStep, runMultiLayerSolver] at h ⊢
    have hc : magCopies j'.layers = magCopies j.layers := by unfold magCopies; rw [hj, quick_mags]
    rw [hc, hj]
    split at h
    · simp [Out.ok, Out.fail] at h
    · rename_i bs ls hx
      have := Out.both_traverse _root_.id (quickLayer s) _ (fun i l => l.rk4Step (t / s) (dt / s) ((magCopies j.layers).getD i .zero)
        ((magCopies j.layers).getD (i + 2) .zero)) 0 j.layers (fun q a _ => quick_rk4 hs a t dt _ _)
      rw [Out.both_ok hx] at this
      rw [this]
      simp only [Out.ok, Out.mk.injEq] at h ⊢
      rw [← h.2]
      exact ⟨_, ⟨trivial, rfl⟩, rfl⟩
  | eulerHeun =>
    simp only [runStep, eulerHeunSolverStep] at h ⊢
    rw [hj, quick_mags]
    split at h
    · simp [Out.ok, Out.fail] at h
    · rename_i bs ls hx
      have := Out.both_traverse _root_.id (quickLayer s) _ (eulerHeunLayer (j.layers.map Layer.mag) (t / s) (dt / s)) 0 j.layers
        (fun q a ha => quick_euler hs _ t dt q a (h0 a ha))
      rw [Out.both_ok hx] at this
      rw [this]
      simp only [Out.ok, Out.mk.injEq, List.map_id, List.map_id_fun] at h ⊢
      rw [← h.2]
      exact ⟨_, ⟨trivial, rfl⟩, quick_store s ls bs⟩
  | heun =>
    simp only [runStep, heunSolverStep] at h ⊢
    rw [hj, quick_mags]
    split at h
    · simp [Out.ok, Out.fail] at h
    · rename_i bs ls hx
      have := Out.both_traverse (quickStage s) (quickLayer s) _ (heunPredict (j.layers.map Layer.mag) (t / s) (dt / s)) 0 j.layers
        (fun q a ha => quick_predict hs _ t dt q a (h0 a ha))
      rw [Out.both_ok hx] at this
      rw [this]
      simp only [Out.ok]
      split at h
      · simp [Out.ok, Out.fail] at h
      · rename_i us ls2 hy
        have := Out.both_traverse _root_.id (quickLayer s) _ (heunCorrect (bs.map (quickStage s)) (t / s) (dt / s)) 0 ls
          (fun q a _ => quick_correct hs bs t dt q a)
        rw [Out.both_ok hy] at this
        rw [this]
        simp only [Out.ok, Out.mk.injEq] at h ⊢
        rw [← h.2]
        exact ⟨_, ⟨trivial, rfl⟩, rfl⟩

/-- helper -/
theorem quick_solver {s : ℝ} {j j' k : Junction ℝ} (h0 : ∀ l ∈ j.layers, l.noiseParams.scaleNoise = 0)
    (hj : j'.layers = j.layers.map (quickLayer s)) {mode m : SolverMode} {n : Nat} {r : Runner}
    (h : j.getSolver mode n = .ok (r, m) k) :
    ∃ k', j'.getSolver mode n = .ok (r, m) k' ∧ k'.layers = k.layers.map (quickLayer s) ∧ k.layers = j.layers := by
  have hq : ∀ l : Layer ℝ, l.noiseParams.scaleNoise = 0 → noiseReady n l = l := fun l hl => by
    unfold noiseReady; simp [hl]
  unfold getSolver at h ⊢
  split at h
  · simp [Out.ok, Out.fail] at h
  · rename_i m' ls hx
    obtain ⟨h1, h2, h3⟩ := (solverLoop_spec n mode m' j.layers ls).1 hx
    have h4 : ls = j.layers := by
      rw [h3]
      conv_rhs => rw [← List.map_id j.layers]
      exact List.map_congr_left fun l hl => hq l (h0 l hl)
    have : solverLoop n mode j'.layers = .ok m' (ls.map (quickLayer s)) := by
      rw [hj]
      refine (solverLoop_spec n mode m' _ _).2 ⟨?_, ?_, ?_⟩
      · intro l hl hs
        obtain ⟨x, hx, rfl⟩ := List.mem_map.1 hl
        have hz : (quickLayer s x).noiseParams.scaleNoise = 0 := h0 x hx
        simp [hz] at hs
      · rw [h2]
        have : (j.layers.map (quickLayer s)).any loud = j.layers.any loud := by rw [List.any_map]; rfl
        rw [this]
      · rw [h4, List.map_map]
        exact List.map_congr_left fun l hl => (hq (quickLayer s l) (h0 l hl)).symm
    rw [this]
    simp only [Out.ok, Out.mk.injEq, Except.ok.injEq, Prod.mk.injEq] at h ⊢
    obtain ⟨⟨h5, h6⟩, h7⟩ := h
    refine ⟨_, ⟨⟨?_, h6⟩, rfl⟩, by rw [← h7], by rw [← h7]; exact h4⟩
    rw [← h5]; unfold layerNo; rw [hj]; simp

/-- helper -/
theorem quick_steps {s : ℝ} (hs : 0 < s) (r : Runner) (dt : ℝ) (n i : Nat) {j j' k : Junction ℝ}
    (h0 : ∀ l ∈ j.layers, l.noiseParams.scaleNoise = 0)
    (hj : j'.layers = j.layers.map (quickLayer s)) (h : steps r dt i n j = .ok () k) :
    ∃ k', steps r (dt / s) i n j' = .ok () k' ∧ k'.layers = k.layers.map (quickLayer s) := by
  induction n generalizing i j j' with
  | zero =>
    simp only [steps, Out.ok, Out.mk.injEq, true_and] at h
    exact ⟨j', rfl, by rw [← h, hj]⟩
  | succ n ih =>
    unfold steps at h ⊢
    obtain ⟨_, j1, h1, h2⟩ := Out.bind_eq_ok h
    obtain ⟨k1, e1, e2⟩ := C133_step hs h0 hj h1
    rw [mul_div_assoc] at e1
    rw [e1]
    refine ih (i + 1) (fun l hl => ?_) e2 h2
    have hsm := runStep_same j r (Scalar.lit (i : ℚ) * dt) dt
    rw [h1] at hsm
    obtain ⟨q, hq⟩ := List.mem_iff_getElem?.1 hl
    have hlt := (List.getElem?_eq_some_iff.1 hq).1
    have hlen : j.layers.length = j1.layers.length := hsm.length_eq
    obtain ⟨l', hl', _, _, _, _, _, hm⟩ := List.Forall₂.getElem?_some hsm (List.getElem?_eq_getElem (show q < j.layers.length by omega))
    have hl'' : j1.layers[q]? = some l' := hl'
    rw [hq] at hl''
    cases hl''
    rw [hm]
    exact h0 j.layers[q] (List.getElem_mem _)

/-- C133. If a run succeeds, so does the run of the quick sample with duration, time step and write interval divided by `s`. It goes
through the same magnetisations: the columns of the magnetisations get the same values, the column of the time gets times divided by
`s`, and the layers end up as the quick version of those of the first run (recorded fields included). No coloured noise. -/
theorem C133_run {s : ℝ} (hs : 0 < s) {j j' k : Junction ℝ} (hr : Reachable j) (hr' : Reachable j') (hd : DistinctIds j)
    (h0 : ∀ l ∈ j.layers, l.noiseParams.scaleNoise = 0)
    (hj : j'.layers = j.layers.map (quickLayer s)) {total dt wf : ℝ} {en : Bool} {mode : SolverMode}
    (h : j.runSimulation total dt wf en mode = .ok () k) :
    ∃ k', j'.runSimulation (total / s) (dt / s) (wf / s) en mode = .ok () k' ∧ k'.layers = k.layers.map (quickLayer s) ∧
      (∀ l ∈ j.layers, ∀ key ∈ [l.id ++ "_mx", l.id ++ "_my", l.id ++ "_mz"],
        ∃ new, k.log.col key = j.log.col key ++ new ∧ k'.log.col key = j'.log.col key ++ new) ∧
      ∃ times, k.log.col "time" = j.log.col "time" ++ times ∧ k'.log.col "time" = j'.log.col "time" ++ times.map (· / s) := by
  obtain ⟨hm', -⟩ := Reachable_inv hr'
  obtain ⟨N, W, r, m, j1, hw, hN, hW, hg, hl⟩ := Sim.run_inv h
  have hN' : Scalar.toUInt (total / s / (dt / s)) = some N := by rw [div_div_div_cancel_right₀ hs.ne']; exact hN
  have hW' : Scalar.toUInt (wf / s / (dt / s)) = some W := by rw [div_div_div_cancel_right₀ hs.ne']; exact hW
  have hw' : Scalar.ltb (wf / s) (dt / s) = false := by
    rw [← hw]
    simp only [Scalar.ltb_real, div_lt_div_iff_of_pos_right hs]
  obtain ⟨j1', hg', e1, e0⟩ := quick_solver h0 hj hg
  have h1 : ∀ l ∈ j1.layers, l.noiseParams.scaleNoise = 0 := by rw [e0]; exact h0
  have hp' := Sim.getSolver_params j' mode N
  rw [hg'] at hp'
  obtain ⟨k1, hk1, e2⟩ := runLoop_evolve r dt W en hl rfl
  have hsteps : steps r dt 0 N j1 = .ok () k1 := by rw [steps_eq_evolve, hk1]
  obtain ⟨k1', hk1', e3⟩ := quick_steps hs r dt N 0 h1 e1 hsteps
  have hrun : ∃ k', j'.runSimulation (total / s) (dt / s) (wf / s) en mode = .ok () k' ∧ k'.layers = k.layers.map (quickLayer s) := by
    unfold runSimulation
    rw [if_neg (by simp [hw'])]
    simp only [hN', hW', hg', Out.bind_ok]
    cases N with
    | zero =>
      refine ⟨j1', rfl, ?_⟩
      simp only [runLoop, Out.ok, Out.mk.injEq, true_and] at hl
      rw [e1, hl]
    | succ n =>
      have hW0 : W ≠ 0 := by
        intro h0
        unfold runLoop at hl
        obtain ⟨-, h2⟩ := bind_unit_ok hl
        rw [if_pos h0] at h2
        simp [Out.ok, Out.fail] at h2
      rw [steps_eq_evolve] at hk1'
      obtain ⟨k', hk', e4⟩ := evolve_runLoop r (dt / s) W en hk1' rfl hW0 (hp'.mrOk hm')
      exact ⟨k', hk', by rw [← e4, e3, e2]⟩
  obtain ⟨k', hk', e4⟩ := hrun
  have hd' : DistinctIds j' := by
    unfold DistinctIds
    rw [hj, List.map_map]
    exact hd
  obtain ⟨N2, W2, r2, m2, j2, a1, a2, a3, -, a5, -, -, a8, a9⟩ := C27_run hr hd h
  obtain ⟨N3, W3, r3, m3, j3, b1, b2, b3, -, b5, -, -, b8, b9⟩ := C27_run hr' hd' hk'
  rw [hN] at a1; cases a1
  rw [hN'] at b1; cases b1
  rw [hW] at a2; cases a2
  rw [hW'] at b2; cases b2
  rw [hg] at a3; cases a3
  rw [hg'] at b3; cases b3
  refine ⟨k', hk', e4, ?_, _, a8, ?_⟩
  · intro l hlm key hkey
    obtain ⟨q, hq⟩ := List.mem_iff_getElem?.1 hlm
    have hq' : j'.layers[q]? = some (quickLayer s l) := by rw [hj, List.getElem?_map, hq]; rfl
    have hmag : ∀ i ∈ sampleSteps N W, magOf (steps r (dt / s) 0 (i + 1) j1').st.layers q =
        magOf (steps r dt 0 (i + 1) j1).st.layers q := by
      intro i hi
      have hi' : i + 1 ≤ N := by simpa using (List.mem_filter.1 hi).1
      have hst := steps_early r dt a5 hi'
      obtain ⟨k2, hk2, e5⟩ := quick_steps hs r dt (i + 1) 0 h1 e1 hst
      rw [hk2]
      change magOf k2.layers _ = _
      rw [e5]
      unfold magOf
      rw [List.getElem?_map]
      cases (steps r dt 0 (i + 1) j1).st.layers[q]? <;> rfl
    have c1 := a9 q l hq
    have c2 := b9 _ _ hq'
    simp only [List.mem_cons, List.not_mem_nil, or_false] at hkey
    rcases hkey with rfl | rfl | rfl
    · exact ⟨_, c1.1, c2.1.trans (congrArg _ (List.map_congr_left fun i hi => by rw [hmag i hi]))⟩
    · exact ⟨_, c1.2.1, c2.2.1.trans (congrArg _ (List.map_congr_left fun i hi => by rw [hmag i hi]))⟩
    · exact ⟨_, c1.2.2, c2.2.2.trans (congrArg _ (List.map_congr_left fun i hi => by rw [hmag i hi]))⟩
  · rw [b8, List.map_map]
    refine congrArg _ (List.map_congr_left fun i _ => ?_)
    exact (mul_div_assoc _ dt s).symm

/-- helper: a coupled pair with an oscillating field and a step of the anisotropy -/
noncomputable def quickPair : List (Layer ℝ) :=
  [{ quietLayer with IECDriverTop := .constantDriver 1,
                     externalFieldDriver := ⟨⟨.sine, 1, 2, 3, 4, 0, 0, 0, 0, 0, 0⟩, .constantDriver 0, .constantDriver 5⟩ },
   { quietLayer with id := "upper", IECQuadDriverBottom := .constantDriver 2,
                     anisotropyDriver := ⟨.step, 1, 2, 0, 0, 0, 0, 3, 4, 0, 0⟩ }]

/-- helper -/
noncomputable def quickPairJ : Junction ℝ := { demoJ with layers := quickPair, mrMode := .NONE }

/-- helper -/
noncomputable def quickPairJ' : Junction ℝ := { demoJ with layers := quickPair.map (quickLayer 2), mrMode := .NONE }

example : Reachable quickPairJ ∧ Reachable quickPairJ' ∧ DistinctIds quickPairJ ∧
    (∀ l ∈ quickPairJ.layers, l.noiseParams.scaleNoise = 0) ∧ quickPairJ'.layers = quickPairJ.layers.map (quickLayer 2) ∧
    quickPairJ'.layers ≠ quickPairJ.layers ∧ ∃ k, quickPairJ.runSimulation 7 1 3 true .RK4 = .ok () k := by
  have hr : Reachable quickPairJ := ⟨quickPairJ, [], .inl ⟨quickPair, by simp [plain, quickPair, quickPairJ, demoJ]⟩, rfl⟩
  refine ⟨hr, ⟨quickPairJ', [], .inl ⟨quickPair.map (quickLayer 2), by simp [plain, quickPair, quickPairJ', demoJ]⟩, rfl⟩,
    ?_, ?_, rfl, ?_, ?_⟩
  · simp [DistinctIds, quickPairJ, quickPair, quietLayer, plainOf, Layer.demo]
  · simp [quickPairJ, quickPair, quietLayer, plainOf, Layer.demo]
  · intro h
    have := congrArg (fun ls => ls.map fun l => l.IECDriverTop.constantValue) h
    simp [quickPairJ', quickPairJ, quickPair, quickLayer, quickDriver, quietLayer, plainOf, Layer.demo, ScalarDriver.constantDriver] at this
  · exact C27_completes quickPairJ hr (by simp [quickPairJ, quickPair, quietLayer, plainOf, Layer.demo])
      (by simp [quickPairJ, quickPair, quietLayer, plainOf, Layer.demo, Noisy]) 7 1 3 true .RK4 (by norm_num) (by norm_num)
      (by norm_num) (by norm_num) (by norm_num)

end Junction
