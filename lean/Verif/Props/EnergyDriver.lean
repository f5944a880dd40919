import Verif.Model.EnergyDriver
import Verif.Props.Relax

/-! # C128: the energy functions give the energy that the simulation dissipates -/

set_option linter.unusedSectionVars false
set_option linter.unusedSimpArgs false

namespace Spec
open Layer

/-- What the four functions say of a layer of area `S` with magnetisation `m` below a layer with magnetisation `u`; `M` is what the caller passes
as saturation magnetisation. The demagnetising field points against the magnetisation. -/
noncomputable def reported (l : Layer ℝ) (S M : ℝ) (m u : CVec ℝ) : ℝ :=
  EnergyDriver.zeeman m (staticField l) (S * l.thickness) M + EnergyDriver.anisotropy m l.anis (l.anisotropyDriver.value 0) (S * l.thickness)
    + EnergyDriver.exchange m u (l.IECDriverTop.value 0) S + EnergyDriver.demag m (smul (-1) (tensorField l.demagTensor l.Ms m)) M (S * l.thickness)

/-- The same for a stack whose saturation magnetisations are converted from tesla to A/m. -/
noncomputable def reportedStack (ls : List (Layer ℝ)) (S : ℝ) (m : Nat → CVec ℝ) : ℝ :=
  ∑ i : Fin ls.length, reported ls[i] S (ls[i].Ms / (1257 / 10 ^ 9)) (m i) (if i.1 + 1 < ls.length then m (i + 1) else ⟨0, 0, 0⟩)

/-- Layers of which the four functions leave nothing out: no biquadratic coupling, no stray field of the layer above, a unit easy axis. -/
structure Covered (l : Layer ℝ) : Prop where
  axis : l.anis.length = 1
  quad : l.IECQuadDriverTop.value 0 = 0
  stray : l.dipoleTop = ⟨⟨0, 0, 0⟩, ⟨0, 0, 0⟩, ⟨0, 0, 0⟩⟩

end Spec

namespace EnergyDriver
open Spec Layer Junction

theorem zeeman_eq (m H : CVec ℝ) (V M : ℝ) : zeeman m H V M = -(1257 / 10 ^ 9 * M * m.dot H * V) := by
  simp only [zeeman, Const.mu0, Scalar.ofSci_real_true]
  norm_num
theorem demag_eq (m H : CVec ℝ) (M V : ℝ) : demag m H M V = -(1 / 2 * (1257 / 10 ^ 9) * M * m.dot H * V) := by
  simp only [demag, Const.mu0, Scalar.ofSci_real_true]
  norm_num
theorem exchange_eq (m u : CVec ℝ) (J S : ℝ) : exchange m u J S = -(m.dot u * J * S) := by
  simp only [exchange]
  ring
theorem anisotropy_eq {m a : CVec ℝ} (hm : m.length = 1) (ha : a.length = 1) (K V : ℝ) : anisotropy m a K V = K * V - K * V * a.dot m ^ 2 := by
  simp only [anisotropy, hm, ha, Scalar.powi_real, Scalar.ofNat_real, Nat.cast_one, mul_one, div_one]
  have : m.dot a = a.dot m := by simp only [CVec.dot]; ring
  rw [this]
  ring

/-- C128. The anisotropy energy is `K V sin² θ` with the angle `θ` between magnetisation and axis, whatever the lengths of the two are. -/
theorem C128_angle {m a : CVec ℝ} (hm : m.length ≠ 0) (ha : a.length ≠ 0) {θ : ℝ} (h : m.dot a = m.length * a.length * Real.cos θ) (K V : ℝ) :
    anisotropy m a K V = K * Real.sin θ ^ 2 * V := by
  have e : m.dot a / (a.length * m.length) = Real.cos θ := by
    rw [h]
    field_simp
  simp only [anisotropy, e, Scalar.powi_real, Scalar.ofNat_real, Nat.cast_one]
  rw [Real.sin_sq]

/-- An axis of length two at a right angle to the magnetisation. -/
example : (⟨0, 0, 3⟩ : CVec ℝ).length ≠ 0 ∧ (⟨2, 0, 0⟩ : CVec ℝ).length ≠ 0 ∧
    (⟨0, 0, 3⟩ : CVec ℝ).dot ⟨2, 0, 0⟩ = (⟨0, 0, 3⟩ : CVec ℝ).length * (⟨2, 0, 0⟩ : CVec ℝ).length * Real.cos (Real.pi / 2) := by
  simp [CVec.length_eq, CVec.normSq, CVec.dot]

/-- C128. For a unit magnetisation, and with the saturation magnetisation in A/m, the four energies add up to the area times the energy that the
simulation dissipates (C123), plus a constant. -/
theorem C128_layer {l : Layer ℝ} (h : Covered l) (S : ℝ) {m : CVec ℝ} (hm : m.length = 1) (u : CVec ℝ) :
    reported l S (l.Ms / (1257 / 10 ^ 9)) m u = S * layerEnergy l m u + l.anisotropyDriver.value 0 * (S * l.thickness) := by
  have hs : tensorField l.dipoleTop l.Ms u = ⟨0, 0, 0⟩ := by rw [h.stray]; simp [tensorField]
  unfold reported layerEnergy
  rw [zeeman_eq, demag_eq, exchange_eq, anisotropy_eq hm h.axis, h.quad, hs]
  simp only [CVec.dot, smul]
  ring

/-- C128. The same for a stack. -/
theorem C128_stack {ls : List (Layer ℝ)} (h : ∀ l ∈ ls, Covered l) (S : ℝ) {m : Nat → CVec ℝ} (hm : ∀ i < ls.length, (m i).length = 1) :
    reportedStack ls S m = S * stackEnergy ls m + S * ∑ i : Fin ls.length, ls[i].anisotropyDriver.value 0 * ls[i].thickness := by
  unfold reportedStack stackEnergy
  rw [Finset.mul_sum, Finset.mul_sum, ← Finset.sum_add_distrib]
  refine Finset.sum_congr rfl fun i _ => ?_
  refine (C128_layer (h _ (List.getElem_mem i.2)) S (hm i i.2) _).trans ?_
  ring_nf
  rfl

/-- C128. While a stack left alone precesses, what the four functions report falls at the rate of the dissipated power; without damping it is
constant. -/
theorem C128_rate {ls : List (Layer ℝ)} (hc : ∀ l ∈ ls, Covered l) (hp : Passive ls) {m : Nat → ℝ → CVec ℝ} {lo hi : ℝ}
    (hm : Motion ls m (Set.Ioo lo hi)) (h1 : ∀ i < ls.length, ∀ t ∈ Set.Ioo lo hi, (m i t).length = 1) (S : ℝ) {t : ℝ} (ht : t ∈ Set.Ioo lo hi) :
    HasDerivAt (fun s => reportedStack ls S fun i => m i s) (-(S * stackLoss ls m t)) t := by
  have h := ((C123_rate hp hm ht).const_mul S).add_const (S * ∑ i : Fin ls.length, ls[i].anisotropyDriver.value 0 * ls[i].thickness)
  rw [mul_neg] at h
  refine h.congr_of_eventuallyEq ?_
  filter_upwards [isOpen_Ioo.mem_nhds ht] with s hs
  exact C128_stack hc S fun i hi => h1 i hi s hs

/-- C128. ... so that it never rises. -/
theorem C128_decreases {ls : List (Layer ℝ)} (hc : ∀ l ∈ ls, Covered l) (hp : Passive ls) {m : Nat → ℝ → CVec ℝ} {lo hi : ℝ}
    (hm : Motion ls m (Set.Ioo lo hi)) (h1 : ∀ i < ls.length, ∀ t ∈ Set.Ioo lo hi, (m i t).length = 1) {S : ℝ} (hS : 0 ≤ S) :
    AntitoneOn (fun t => reportedStack ls S fun i => m i t) (Set.Ioo lo hi) := by
  intro s hs t ht hst
  have := C123_decreases hp hm hs ht hst
  simp only [C128_stack hc S fun i hi => h1 i hi t ht, C128_stack hc S fun i hi => h1 i hi s hs]
  have := mul_le_mul_of_nonneg_left this hS
  linarith

/-! ### Cases -/

/-- A layer with its easy axis along z in a field of 3 along x. -/
noncomputable def caseLayer : Layer ℝ := { plainOf Layer.demo with externalFieldDriver := .ofVec ⟨3, 0, 0⟩ }

theorem case_covered : Covered caseLayer := by
  refine ⟨?_, ?_, ?_⟩
  · show CVec.length (⟨0, 0, 1⟩ : CVec ℝ) = 1
    simp [CVec.length_eq, CVec.normSq]
  · show (ScalarDriver.null : ScalarDriver ℝ).value 0 = 0
    simp [ScalarDriver.value, ScalarDriver.null]
  · show (Tensor.zero : Tensor ℝ) = _
    simp [Tensor.zero, CVec.zero]

theorem case_passive : Passive [caseLayer] := by
  have zero : ∀ t, (AxialDriver.null : AxialDriver ℝ).value t = ⟨0, 0, 0⟩ := by
    intro t; simp [AxialDriver.value, AxialDriver.null, ScalarDriver.value, ScalarDriver.null]
  have tz : ∀ (Ms : ℝ) (a b : CVec ℝ), a.dot (tensorField Tensor.zero Ms b) = 0 := by
    intro Ms a b; simp [tensorField, Tensor.zero, CVec.zero, CVec.dot]
  refine ⟨fun l hl => ?_, fun i lo up h1 h2 => by match i, h2 with | 0, h2 => simp at h2 | i + 1, h2 => simp at h2⟩
  rw [List.mem_singleton.1 hl]
  refine ⟨rfl, rfl, by norm_num [caseLayer, plainOf, Layer.demo], by norm_num [caseLayer, plainOf, Layer.demo], ?_, still_constant rfl,
    still_constant rfl, still_constant rfl, still_constant rfl, still_constant rfl, still_axes ⟨rfl, rfl, rfl⟩, still_axes ⟨rfl, rfl, rfl⟩,
    still_axes ⟨rfl, rfl, rfl⟩, still_axes ⟨rfl, rfl, rfl⟩, zero, zero⟩
  intro a b
  rw [show caseLayer.demagTensor = Tensor.zero from rfl, tz, tz]

/-- The theorems apply to a motion of this layer. -/
example : ∃ m, Motion [caseLayer] m (Set.Ioo 0 1) ∧ ∀ i < [caseLayer].length, ∀ t ∈ Set.Ioo (0 : ℝ) 1, (m i t).length = 1 := by
  obtain ⟨m, hm⟩ := C111_global { demoJ with layers := [caseLayer] }
    (by simp [caseLayer, plainOf, Layer.demo, CVec.length_eq, CVec.normSq]) (by simp [caseLayer, plainOf, Layer.demo])
    (fun l hl => by rw [List.mem_singleton.1 hl, quiet_iff]; exact ⟨rfl, by simp [caseLayer, plainOf, Layer.demo]⟩)
    (fun l hl => by
      rw [List.mem_singleton.1 hl]
      have ax : SmoothAxes (AxialDriver.null : AxialDriver ℝ) := ⟨.inl rfl, .inl rfl, .inl rfl⟩
      exact ⟨.inl rfl, .inl rfl, .inl rfl, .inl rfl, .inl rfl, .inl rfl, .inl rfl, .inl rfl, ax, ax, ax, ⟨.inl rfl, .inl rfl, .inl rfl⟩, ax, ax⟩)
    (fun l hl _ _ _ _ _ _ h => by rw [List.mem_singleton.1 hl] at h; cases h)
  refine ⟨m, fun i l hl t ht => ?_, fun i hi t ht => ?_⟩
  · obtain ⟨lo, hi, h1, h2, h3⟩ := (hm 1 zero_le_one).solves
    exact h3 i l hl t ⟨by linarith [ht.1], by linarith [ht.2]⟩
  · have : i = 0 := by simpa using hi
    subst this
    exact track_unit (hm 1 zero_le_one) ⟨ht.1.le, ht.2.le⟩ (l := caseLayer) rfl

/-- C128, with the saturation magnetisation as the layer holds it (in tesla) refuted: the energies then do not compare states as the simulation
does. Of two states of the layer the functions call the one lower that is higher. -/
theorem C128_units_refuted : ∃ (l : Layer ℝ) (a b : CVec ℝ), Covered l ∧ Passive [l] ∧ a.length = 1 ∧ b.length = 1 ∧
    layerEnergy l a ⟨0, 0, 0⟩ < layerEnergy l b ⟨0, 0, 0⟩ ∧ reported l 1 l.Ms b ⟨0, 0, 0⟩ < reported l 1 l.Ms a ⟨0, 0, 0⟩ := by
  have hs : staticField caseLayer = ⟨3, 0, 0⟩ := by
    apply CVec.ext <;>
      simp [staticField, caseLayer, plainOf, Layer.demo, AxialDriver.value, AxialDriver.null, AxialDriver.ofVec, ScalarDriver.value,
        ScalarDriver.null, ScalarDriver.constantDriver]
  have hd : caseLayer.demagTensor = Tensor.zero := rfl
  have hp : caseLayer.dipoleTop = Tensor.zero := rfl
  have hM : caseLayer.Ms = 1 := rfl
  have ht : caseLayer.thickness = 1 := rfl
  have ha : caseLayer.anis = ⟨0, 0, 1⟩ := rfl
  have hK : caseLayer.anisotropyDriver.value 0 = 1 := by
    show (ScalarDriver.constantDriver (1 : ℝ)).value 0 = 1
    simp [ScalarDriver.value, ScalarDriver.constantDriver]
  have hx : (⟨1, 0, 0⟩ : CVec ℝ).length = 1 := by simp [CVec.length_eq, CVec.normSq]
  have hz : (⟨0, 0, 1⟩ : CVec ℝ).length = 1 := by simp [CVec.length_eq, CVec.normSq]
  refine ⟨caseLayer, ⟨1, 0, 0⟩, ⟨0, 0, 1⟩, case_covered, case_passive, hx, hz, ?_, ?_⟩
  · unfold layerEnergy
    rw [hs, hd, hp, hM, ht, ha, hK]
    simp [tensorField, Tensor.zero, CVec.zero, CVec.dot]
  · unfold reported
    rw [anisotropy_eq hx case_covered.axis, anisotropy_eq hz case_covered.axis]
    simp only [zeeman_eq, demag_eq, exchange_eq]
    rw [hs, hd, hM, ht, ha, hK]
    simp [tensorField, Tensor.zero, CVec.zero, CVec.dot, smul]
    norm_num

/-- In A/m they do. -/
example : reported caseLayer 1 (caseLayer.Ms / (1257 / 10 ^ 9)) ⟨1, 0, 0⟩ ⟨0, 0, 0⟩ = -2 := by
  rw [C128_layer case_covered 1 (by simp [CVec.length_eq, CVec.normSq])]
  have hs : staticField caseLayer = ⟨3, 0, 0⟩ := by
    apply CVec.ext <;>
      simp [staticField, caseLayer, plainOf, Layer.demo, AxialDriver.value, AxialDriver.null, AxialDriver.ofVec, ScalarDriver.value,
        ScalarDriver.null, ScalarDriver.constantDriver]
  have hK : caseLayer.anisotropyDriver.value 0 = 1 := by
    show (ScalarDriver.constantDriver (1 : ℝ)).value 0 = 1
    simp [ScalarDriver.value, ScalarDriver.constantDriver]
  unfold layerEnergy
  rw [hs, hK, show caseLayer.demagTensor = Tensor.zero from rfl, show caseLayer.dipoleTop = Tensor.zero from rfl, show caseLayer.Ms = 1 from rfl,
    show caseLayer.thickness = 1 from rfl, show caseLayer.anis = ⟨0, 0, 1⟩ from rfl]
  simp [tensorField, Tensor.zero, CVec.zero, CVec.dot]
  norm_num

end EnergyDriver
