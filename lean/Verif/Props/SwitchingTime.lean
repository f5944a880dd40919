import Verif.Props.Switching
import Mathlib.MeasureTheory.Integral.IntervalIntegral.IntegrationByParts

set_option linter.unusedSectionVars false

/-!
C140: how long a layer takes to switch. The setting is that of C126: everything about the layer shares the axis `z`.
-/

namespace Spec
open Layer

/-- The time theory gives for the component along the axis to go from `a` to `b`. -/
noncomputable def passageTime (l : Layer ℝ) (h K n N p a b : ℝ) : ℝ :=
  (1 + l.damping ^ 2) / 220880 * ∫ z in a..b, 1 / ((1 - z ^ 2) * push l h K n N p z)

/-- The same in closed form when the push is `u + v z` (textbook: a field beyond the anisotropy field). -/
noncomputable def passageClock (u v z : ℝ) : ℝ :=
  Real.log (1 + z) / (2 * (u - v)) - Real.log (1 - z) / (2 * (u + v)) - v / (u ^ 2 - v ^ 2) * Real.log |u + v * z|

end Spec

namespace Switching
open Spec Set Junction

variable {z q : ℝ → ℝ} {a b c : ℝ}

theorem rate_pos (ha : -1 < a) (hb : b < 1) (hq : ∀ y ∈ Icc a b, 0 < q y) {y : ℝ} (hy : y ∈ Icc a b) : 0 < (1 - y ^ 2) * q y :=
  mul_pos (by nlinarith [hy.1, hy.2]) (hq y hy)

theorem rate_inv (ha : -1 < a) (hb : b < 1) (hq : ∀ y ∈ Icc a b, 0 < q y) (hc : ContinuousOn q (Icc a b)) :
    ContinuousOn (fun y => 1 / ((1 - y ^ 2) * q y)) (Icc a b) := by
  refine ContinuousOn.div continuousOn_const (ContinuousOn.mul (by fun_prop) hc) fun y hy => (rate_pos ha hb hq hy).ne'

/-- While the path stays between `a` and `b`, the time is the integral. -/
theorem clock (ha : -1 < a) (hb : b < 1) (hq : ∀ y ∈ Icc a b, 0 < q y) (hc : ContinuousOn q (Icc a b)) {t : ℝ} (ht : 0 ≤ t)
    (hz : ∀ t, 0 ≤ t → HasDerivAt z (c * (1 - z t ^ 2) * q (z t)) t) (hr : ∀ s ∈ Icc 0 t, z s ∈ Icc a b) :
    c * t = ∫ y in z 0..z t, 1 / ((1 - y ^ 2) * q y) := by
  have hzc : ContinuousOn z (Icc 0 t) := fun s hs => (hz s hs.1).continuousAt.continuousWithinAt
  have himg : z '' uIcc 0 t ⊆ Icc a b := by
    rw [uIcc_of_le ht]
    rintro _ ⟨s, hs, rfl⟩
    exact hr s hs
  rw [← intervalIntegral.integral_comp_mul_deriv'' (f := z) (f' := fun s => c * (1 - z s ^ 2) * q (z s)) (g := fun y => 1 / ((1 - y ^ 2) * q y))
    (by rwa [uIcc_of_le ht]) (fun s hs => (hz s (by rw [min_eq_left ht] at hs; exact hs.1.le)).hasDerivWithinAt)
    (by
      rw [uIcc_of_le ht]
      exact ContinuousOn.mul (by fun_prop) (hc.comp hzc hr)) ((rate_inv ha hb hq hc).mono himg)]
  rw [intervalIntegral.integral_congr (g := fun _ => c) fun s hs => ?_]
  · simp [mul_comm]
  · rw [uIcc_of_le ht] at hs
    have := (rate_pos ha hb hq (hr s hs)).ne'
    simp only [Function.comp]
    rw [mul_assoc c, mul_comm c, ← mul_assoc, one_div_mul_cancel this, one_mul]

theorem integral_lt (ha : -1 < a) (hb : b < 1) (hq : ∀ y ∈ Icc a b, 0 < q y) (hc : ContinuousOn q (Icc a b)) {y : ℝ} (hy : a ≤ y) (hyb : y < b) :
    ∫ y in a..y, 1 / ((1 - y ^ 2) * q y) < ∫ y in a..b, 1 / ((1 - y ^ 2) * q y) := by
  have hi := rate_inv ha hb hq hc
  have h1 : IntervalIntegrable (fun y => 1 / ((1 - y ^ 2) * q y)) MeasureTheory.volume a y :=
    (hi.mono (by rw [uIcc_of_le hy]; exact Icc_subset_Icc_right hyb.le)).intervalIntegrable
  have h2 : IntervalIntegrable (fun y => 1 / ((1 - y ^ 2) * q y)) MeasureTheory.volume y b :=
    (hi.mono (by rw [uIcc_of_le hyb.le]; exact Icc_subset_Icc_left hy)).intervalIntegrable
  rw [← intervalIntegral.integral_add_adjacent_intervals h1 h2]
  have := intervalIntegral.intervalIntegral_pos_of_pos_on h2 (fun x hx => one_div_pos.2 (rate_pos ha hb hq ⟨hy.trans hx.1.le, hx.2.le⟩)) hyb
  linarith

/-- helper: the path reaches `b` at one time. -/
theorem passes (hc0 : 0 < c) (hz : ∀ t, 0 ≤ t → HasDerivAt z (c * (1 - z t ^ 2) * q (z t)) t) (ha : -1 < z 0) (hab : z 0 < b) (hb : b < 1)
    (hq : ∀ y ∈ Icc (z 0) b, 0 < q y) (hc : ContinuousOn q (Icc (z 0) b)) {t : ℝ} (ht : 0 ≤ t) :
    (z t < b ↔ c * t < ∫ y in z 0..b, 1 / ((1 - y ^ 2) * q y)) ∧ (z t = b ↔ c * t = ∫ y in z 0..b, 1 / ((1 - y ^ 2) * q y)) := by
  have hb' : -1 < b := ha.trans hab
  have hge : ∀ s, 0 ≤ s → z 0 ≤ z s := fun s hs => trapped hc0 hz ha (hab.trans hb) le_rfl (hq _ ⟨le_rfl, hab.le⟩) hs
  have hstay : ∀ s t, 0 ≤ s → s ≤ t → b ≤ z s → b ≤ z t := by
    intro s t hs hst h
    have := trapped (z := fun u => z (s + u)) (q := q) (b := b) (t := t - s) hc0 (fun u hu => by
      have := (hz (s + u) (by linarith)).comp_const_add s u
      exact this) hb' hb (by simpa using h) (hq b ⟨hab.le, le_rfl⟩) (by linarith)
    simpa using this
  have hcont : ∀ t, ContinuousOn z (Icc 0 t) := fun t s hs => (hz s hs.1).continuousAt.continuousWithinAt
  -- below `b` the clock runs
  have low : ∀ t, 0 ≤ t → z t < b → c * t < ∫ y in z 0..b, 1 / ((1 - y ^ 2) * q y) := by
    intro t ht h
    rw [clock ha hb hq hc ht hz fun s hs => ⟨hge s hs.1, le_of_lt (lt_of_not_ge fun h' => absurd (hstay s t hs.1 hs.2 h') (not_le.2 h))⟩]
    exact integral_lt ha hb hq hc (hge t ht) h
  -- the first time at `b`
  have first : ∀ t, 0 ≤ t → b ≤ z t → ∃ s ∈ Icc 0 t, z s = b ∧ c * s = ∫ y in z 0..b, 1 / ((1 - y ^ 2) * q y) := by
    intro t ht h
    have hcl : IsCompact (Icc 0 t ∩ z ⁻¹' Ici b) :=
      isCompact_Icc.of_isClosed_subset ((hcont t).preimage_isClosed_of_isClosed isClosed_Icc isClosed_Ici) inter_subset_left
    obtain ⟨s, ⟨hs, hs'⟩, hmin⟩ := hcl.exists_isLeast ⟨t, ⟨ht, le_rfl⟩, h⟩
    have hlt : ∀ u ∈ Icc 0 s, u < s → z u < b := fun u hu hus =>
      lt_of_not_ge fun h' => absurd (hmin ⟨⟨hu.1, hu.2.trans hs.2⟩, h'⟩) (not_le.2 hus)
    have heq : z s = b := by
      refine le_antisymm ?_ hs'
      by_contra hgt
      obtain ⟨u, hu, e⟩ := intermediate_value_Icc hs.1 (hcont s) ⟨hab.le, (not_le.1 hgt).le⟩
      rcases hu.2.eq_or_lt with rfl | h1
      · exact hgt e.le
      · exact absurd (hlt u hu h1) (by rw [e]; exact lt_irrefl _)
    refine ⟨s, hs, heq, ?_⟩
    rw [clock ha hb hq hc hs.1 hz fun u hu => ⟨hge u hu.1, ?_⟩, heq]
    rcases hu.2.eq_or_lt with rfl | h1
    · exact heq.le
    · exact (hlt u hu h1).le
  have h1 : z t < b ↔ c * t < ∫ y in z 0..b, 1 / ((1 - y ^ 2) * q y) := by
    refine ⟨low t ht, fun h => lt_of_not_ge fun h' => ?_⟩
    obtain ⟨s, hs, -, e⟩ := first t ht h'
    rw [← e] at h
    exact absurd (lt_of_mul_lt_mul_left h hc0.le) (not_lt.2 hs.2)
  refine ⟨h1, fun h => ?_, fun h => ?_⟩
  · obtain ⟨s, hs, hsb, e⟩ := first t ht h.ge
    rcases hs.2.eq_or_lt with rfl | hst
    · exact e
    exfalso
    have hd := hz t ht
    rw [h] at hd
    have hpos : 0 < c * (1 - b ^ 2) * q b := by
      rw [mul_assoc]
      exact mul_pos hc0 (rate_pos ha hb hq ⟨hab.le, le_rfl⟩)
    have hsl := (hasDerivAt_iff_tendsto_slope.1 hd).eventually (lt_mem_nhds hpos)
    have hsl' : ∀ᶠ u in nhdsWithin t (Iio t), 0 < slope z t u := hsl.filter_mono (nhdsWithin_mono t fun u hu => ne_of_lt hu)
    obtain ⟨u, hu1, hu2⟩ := (hsl'.and (Ioo_mem_nhdsLT hst)).exists
    have hzu := hstay s u hs.1 hu2.1.le hsb.ge
    rw [slope_def_field, h] at hu1
    have : (z u - b) / (u - t) ≤ 0 := div_nonpos_of_nonneg_of_nonpos (by linarith) (by linarith [hu2.2])
    linarith
  · have hbt : b ≤ z t := not_lt.1 fun h' => absurd (h1.1 h') (by rw [h]; exact lt_irrefl _)
    obtain ⟨s, hs, hsb, e⟩ := first t ht hbt
    rw [← h] at e
    rw [← mul_left_cancel₀ hc0.ne' e]
    exact hsb

variable {j : Junction ℝ} {l : Layer ℝ} {h K n N p : ℝ} {m : Nat → ℝ → CVec ℝ}

theorem push_continuousOn (hr : Undriven j l) (ha : Axial l h K n N p) (h0 : -1 < a) (h1 : b < 1) :
    ContinuousOn (push l h K n N p) (Icc a b) := by
  intro y hy
  have hl : (⟨0, 0, y⟩ : CVec ℝ).length ≤ 1 := by
    rw [CVec.length_eq]
    refine Real.sqrt_le_one.2 ?_
    simp only [CVec.normSq]
    nlinarith [hy.1, hy.2]
  have hz : (⟨0, 0, 0⟩ : CVec ℝ).length ≤ 1 := by simp [CVec.length_eq, CVec.normSq]
  exact (push_continuous ha (hr.poleless ⟨0, 0, y⟩ _ _ hl hz hz)).continuousWithinAt

theorem passage_scale (l : Layer ℝ) (I t : ℝ) : (220880 / (1 + l.damping ^ 2) * t < I ↔ t < (1 + l.damping ^ 2) / 220880 * I) ∧
    (220880 / (1 + l.damping ^ 2) * t = I ↔ t = (1 + l.damping ^ 2) / 220880 * I) := by
  have hd : 0 < 1 + l.damping ^ 2 := by positivity
  constructor
  · rw [div_mul_eq_mul_div, div_lt_iff₀ hd, div_mul_eq_mul_div, lt_div_iff₀ (by norm_num)]
    constructor <;> intro h <;> linarith
  · rw [div_mul_eq_mul_div, div_eq_iff hd.ne', div_mul_eq_mul_div, eq_div_iff (by norm_num)]
    constructor <;> intro h <;> linarith

/-- C140: the component along the axis passes `b` at the time theory gives, and at no other. -/
theorem C140_up (hr : Undriven j l) (ha : Axial l h K n N p) (hm : ∀ T, 0 ≤ T → Track j m T) (h0 : -1 < l.mag.z) (hab : l.mag.z < b)
    (hb : b < 1) (hq : ∀ y ∈ Icc l.mag.z b, 0 < push l h K n N p y) {t : ℝ} (ht : 0 ≤ t) :
    ((m 0 t).z < b ↔ t < passageTime l h K n N p l.mag.z b) ∧ ((m 0 t).z = b ↔ t = passageTime l h K n N p l.mag.z b) := by
  have hc := push_continuousOn hr ha h0 hb
  have e := axial_start hr.single hm
  rw [← e] at h0 hab hq hc
  have := passes (z := fun t => (m 0 t).z) (q := push l h K n N p) (c := 220880 / (1 + l.damping ^ 2)) (by positivity)
    (fun t ht => (axial_track hr.single ha hm ht).1) h0 hab hb hq hc ht
  rw [(passage_scale l _ t).1, (passage_scale l _ t).2, e] at this
  exact this

/-- C140: the same downwards. -/
theorem C140_down (hr : Undriven j l) (ha : Axial l h K n N p) (hm : ∀ T, 0 ≤ T → Track j m T) (h0 : l.mag.z < 1) (hab : b < l.mag.z)
    (hb : -1 < b) (hq : ∀ y ∈ Icc b l.mag.z, push l h K n N p y < 0) {t : ℝ} (ht : 0 ≤ t) :
    (b < (m 0 t).z ↔ t < passageTime l h K n N p l.mag.z b) ∧ ((m 0 t).z = b ↔ t = passageTime l h K n N p l.mag.z b) := by
  have hc := push_continuousOn hr ha hb h0
  have e := axial_start hr.single hm
  rw [← e] at h0 hab hq hc
  have hmaps : ∀ y ∈ Icc (-(m 0 0).z) (-b), -y ∈ Icc b (m 0 0).z := fun y hy => ⟨by linarith [hy.2], by linarith [hy.1]⟩
  have := passes (z := fun t => -(m 0 t).z) (q := fun y => -push l h K n N p (-y)) (c := 220880 / (1 + l.damping ^ 2)) (b := -b) (by positivity)
    (fun t ht => (axial_track hr.single ha hm ht).1.neg.congr_deriv (by rw [neg_neg]; ring)) (by simpa using h0) (by simpa using hab) (by linarith)
    (fun y hy => by linarith [hq _ (hmaps y hy)]) (hc.comp continuous_neg.continuousOn hmaps).neg ht
  have ei : ∫ y in -(m 0 0).z..-b, 1 / ((1 - y ^ 2) * -push l h K n N p (-y)) = ∫ y in (m 0 0).z..b, 1 / ((1 - y ^ 2) * push l h K n N p y) := by
    have := intervalIntegral.integral_comp_neg (a := -(m 0 0).z) (b := -b) fun y => 1 / ((1 - y ^ 2) * -push l h K n N p y)
    simp only [neg_neg, neg_sq] at this
    rw [this, intervalIntegral.integral_symm, ← intervalIntegral.integral_neg]
    refine intervalIntegral.integral_congr fun y _ => ?_
    simp only [mul_neg, div_neg, neg_neg]
  simp only [(passage_scale l _ t).1, (passage_scale l _ t).2, neg_lt_neg_iff, neg_inj] at this
  rw [ei, e] at this
  exact this

/-- C140 for simulations: runs with small steps that end before that time end below `b`, those that end after it end above. -/
theorem C140_runs (hr : Undriven j l) (ha : Axial l h K n N p) (h0 : -1 < l.mag.z) (hab : l.mag.z < b) (hb : b < 1)
    (hq : ∀ y ∈ Icc l.mag.z b, 0 < push l h K n N p y) (mode : SolverMode) (ε : ℝ) (hε : 0 < ε) (T : ℝ) :
    ∃ r : ℝ, 0 < r ∧ ∀ (k : Nat) (dt : ℝ), 0 < dt → dt ≤ r → k * dt ≤ T → ∀ (we : Nat) (en : Bool) (j' : Junction ℝ),
      LoopEnds j mode k dt we en j' → ∀ l' ∈ j'.layers,
        (k * dt ≤ passageTime l h K n N p l.mag.z b - ε → l'.mag.z < b) ∧
        (passageTime l h K n N p l.mag.z b + ε ≤ k * dt → b < l'.mag.z) := by
  obtain ⟨m, hm⟩ := regular_track hr
  set P := passageTime l h K n N p l.mag.z b
  by_cases hT : 0 ≤ T
  swap
  · exact ⟨1, one_pos, fun k dt hdt _ hk => absurd (le_trans (by positivity) hk) hT⟩
  have hcont : ContinuousOn (fun t => (m 0 t).z) (Icc 0 T) := fun s hs => (axial_track hr.single ha hm hs.1).1.continuousAt.continuousWithinAt
  obtain ⟨δ, hδ, gap⟩ : ∃ δ : ℝ, 0 < δ ∧ ∀ t ∈ Icc 0 T, (t ≤ P - ε → (m 0 t).z ≤ b - δ) ∧ (P + ε ≤ t → b + δ ≤ (m 0 t).z) := by
    have hcl : IsCompact (Icc 0 T ∩ {t | t ≤ P - ε ∨ P + ε ≤ t}) :=
      isCompact_Icc.inter_right ((isClosed_Iic (a := P - ε)).union (isClosed_Ici (a := P + ε)))
    rcases (Icc 0 T ∩ {t | t ≤ P - ε ∨ P + ε ≤ t}).eq_empty_or_nonempty with he | hne
    · exact ⟨1, one_pos, fun t ht => ⟨fun h => absurd (show t ∈ (∅ : Set ℝ) from he ▸ ⟨ht, .inl h⟩) (by simp),
        fun h => absurd (show t ∈ (∅ : Set ℝ) from he ▸ ⟨ht, .inr h⟩) (by simp)⟩⟩
    have hcd : ContinuousOn (fun t => |(m 0 t).z - b|) (Icc 0 T ∩ {t | t ≤ P - ε ∨ P + ε ≤ t}) :=
      ((hcont.mono inter_subset_left).sub continuousOn_const).abs
    obtain ⟨s, hs, hmin⟩ := hcl.exists_isMinOn hne hcd
    have hs0 := C140_up hr ha hm h0 hab hb hq hs.1.1
    refine ⟨|(m 0 s).z - b|, abs_pos.2 (sub_ne_zero.2 fun e => ?_), fun t ht => ⟨fun h => ?_, fun h => ?_⟩⟩
    · have := hs0.2.1 e
      change s = P at this
      rcases hs.2 with h | h <;> linarith
    · have h1 : (m 0 t).z < b := (C140_up hr ha hm h0 hab hb hq ht.1).1.2 (show t < P by linarith)
      have h2 : |(m 0 s).z - b| ≤ |(m 0 t).z - b| := hmin ⟨ht, .inl h⟩
      rw [abs_of_neg (sub_neg.2 h1)] at h2
      linarith
    · have h3 := C140_up hr ha hm h0 hab hb hq ht.1
      have h1 : b < (m 0 t).z := lt_of_le_of_ne (not_lt.1 fun h' => by
        have : t < P := h3.1.1 h'
        linarith) fun e => by
          have : t = P := h3.2.1 e.symm
          linarith
      have h2 : |(m 0 s).z - b| ≤ |(m 0 t).z - b| := hmin ⟨ht, .inr h⟩
      rw [abs_of_pos (sub_pos.2 h1)] at h2
      linarith
  obtain ⟨C, r, hrp, hn, -⟩ := C111_all j m T (hm T hT) mode
  have hpos : 0 < |C| + 1 := by positivity
  refine ⟨min r (δ / 2 / (|C| + 1)), lt_min hrp (by positivity), fun k dt hdt hdr hkT we en j' hk l' hl' => ?_⟩
  have d1 : dt ≤ r := hdr.trans (min_le_left _ _)
  have d2 : dt ≤ δ / 2 / (|C| + 1) := hdr.trans (min_le_right _ _)
  rw [le_div_iff₀ hpos] at d2
  have hlen := loop_length (hm T hT).quiet hk
  rw [hr.single] at hlen
  obtain ⟨i, hi, hil⟩ := List.getElem_of_mem hl'
  have hi0 : i = 0 := by simp only [hlen, List.length_cons, List.length_nil] at hi; omega
  subst hi0
  have hnear := hn k dt hdt d1 hkT we en j' hk 0 l' (by rw [← hil]; exact List.getElem?_eq_getElem hi)
  rw [pow_one] at hnear
  have h1 := (Relax.length_comp hnear).2.2
  rw [CVec.sub_z] at h1
  have h4 : C * dt ≤ |C| * dt := mul_le_mul_of_nonneg_right (le_abs_self C) hdt.le
  have h5 := abs_le.1 (h1.trans (h4.trans (by nlinarith : |C| * dt ≤ δ / 2)))
  have g := gap (k * dt) ⟨by positivity, hkT⟩
  exact ⟨fun h => by linarith [g.1 h, h5.2], fun h => by linarith [g.2 h, h5.1]⟩

theorem clock_slope {u v y : ℝ} (h1 : -1 < y) (h2 : y < 1) (h3 : u + v * y ≠ 0) (h4 : u ≠ v) (h5 : u ≠ -v) :
    HasDerivAt (passageClock u v) (1 / ((1 - y ^ 2) * (u + v * y))) y := by
  have e1 : HasDerivAt (fun y : ℝ => 1 + y) 1 y := by simpa using (hasDerivAt_id y).const_add 1
  have e2 : HasDerivAt (fun y : ℝ => 1 - y) (-1) y := by simpa using (hasDerivAt_id y).const_sub 1
  have e3 : HasDerivAt (fun y : ℝ => u + v * y) v y := by simpa using ((hasDerivAt_id y).const_mul v).const_add u
  have n1 : 1 + y ≠ 0 := by linarith
  have n2 : 1 - y ≠ 0 := by linarith
  have n4 : u - v ≠ 0 := sub_ne_zero.2 h4
  have n5 : u + v ≠ 0 := fun h => h5 (by linarith)
  have e4 : HasDerivAt (fun y : ℝ => Real.log |u + v * y|) (v / (u + v * y)) y := by
    simp only [Real.log_abs]
    exact e3.log h3
  refine ((((e1.log n1).div_const _).sub ((e2.log n2).div_const _)).sub (e4.const_mul _)).congr_deriv ?_
  rw [show 1 - y ^ 2 = (1 + y) * (1 - y) by ring, show u ^ 2 - v ^ 2 = (u - v) * (u + v) by ring]
  obtain ⟨d, hd⟩ : ∃ d, d = u + v * y := ⟨_, rfl⟩
  rw [← hd] at h3 ⊢
  field_simp
  rw [hd]
  ring

/-- C140, closed form: when the push is linear in the component along the axis, the time is a sum of logarithms. -/
theorem C140_closed (h0 : -1 < a) (h1 : a < 1) (h2 : -1 < b) (h3 : b < 1) {u v : ℝ} (hp : ∀ y, push l h K n N p y = u + v * y)
    (hn : ∀ y ∈ uIcc a b, push l h K n N p y ≠ 0) (h4 : u ≠ v) (h5 : u ≠ -v) :
    passageTime l h K n N p a b = (1 + l.damping ^ 2) / 220880 * (passageClock u v b - passageClock u v a) := by
  have hsub : ∀ y ∈ uIcc a b, -1 < y ∧ y < 1 := by
    intro y hy
    rw [mem_uIcc] at hy
    rcases hy with hy | hy <;> constructor <;> linarith [hy.1, hy.2]
  unfold passageTime
  simp only [hp] at hn ⊢
  rw [intervalIntegral.integral_eq_sub_of_hasDerivAt fun y hy => clock_slope (hsub y hy).1 (hsub y hy).2 (hn y hy) h4 h5]
  refine ContinuousOn.intervalIntegrable (ContinuousOn.div continuousOn_const (by fun_prop) fun y hy => ?_)
  have := hsub y hy
  exact mul_ne_zero (by nlinarith) (hn y hy)

/-- C140: without spin torques, in a field `h` beyond the effective anisotropy field, the time from `a` to `b` in closed form. -/
theorem C140_field (hd : l.damping ≠ 0) (h1 : l.includeSTT = false) (h2 : l.includeSOT = false) (hk : |stiffness l.Ms K n N| < |h|)
    (ha : -1 < a) (ha' : a < 1) (hb : -1 < b) (hb' : b < 1) :
    passageTime l h K n N p a b =
      (1 + l.damping ^ 2) / (220880 * l.damping) * (passageClock h (stiffness l.Ms K n N) b - passageClock h (stiffness l.Ms K n N) a) := by
  set k := stiffness l.Ms K n N
  have hne : ∀ y, -1 < y → y < 1 → h + k * y ≠ 0 := by
    intro y hy hy' e
    have : |h| ≤ |k| := by
      rw [show h = -(k * y) by linarith, abs_neg, abs_mul]
      exact mul_le_of_le_one_right (abs_nonneg _) (abs_le.2 ⟨hy.le, hy'.le⟩)
    linarith
  have h4 : h ≠ k := fun e => by rw [e] at hk; exact lt_irrefl _ hk
  have h5 : h ≠ -k := fun e => by rw [e, abs_neg] at hk; exact lt_irrefl _ hk
  have hp : ∀ y, push l h K n N p y = l.damping * (h + k * y) := fun y => by simp [push, spinPush, h1, h2, k]
  have hsub : ∀ y ∈ uIcc a b, -1 < y ∧ y < 1 := by
    intro y hy
    rw [mem_uIcc] at hy
    rcases hy with hy | hy <;> constructor <;> linarith [hy.1, hy.2]
  unfold passageTime
  have e1 : ∫ y in a..b, 1 / ((1 - y ^ 2) * push l h K n N p y) = 1 / l.damping * ∫ y in a..b, 1 / ((1 - y ^ 2) * (h + k * y)) := by
    rw [← intervalIntegral.integral_const_mul]
    refine intervalIntegral.integral_congr fun y _ => ?_
    simp only [hp]
    rw [mul_left_comm, ← one_div_mul_one_div]
  rw [e1, intervalIntegral.integral_eq_sub_of_hasDerivAt fun y hy => clock_slope (hsub y hy).1 (hsub y hy).2 (hne y (hsub y hy).1 (hsub y hy).2) h4 h5]
  · field_simp
  · refine ContinuousOn.intervalIntegrable (ContinuousOn.div continuousOn_const (by fun_prop) fun y hy => ?_)
    have := hsub y hy
    exact mul_ne_zero (by nlinarith) (hne y this.1 this.2)

/-! ### A case that meets the hypotheses -/

/-- In twice the field 10⁶ A/m the layer of C126 crosses the plane across the axis at the time theory gives. -/
example (ε : ℝ) (hε : 0 < ε) (T : ℝ) : ∃ r : ℝ, 0 < r ∧ ∀ (k : Nat) (dt : ℝ), 0 < dt → dt ≤ r → k * dt ≤ T → ∀ (we : Nat) (en : Bool)
    (j' : Junction ℝ), LoopEnds { demoJ with layers := [axisLayer 2e6 1e6 false] } .RK4 k dt we en j' → ∀ l' ∈ j'.layers,
      (k * dt ≤ passageTime (axisLayer 2e6 1e6 false) 2e6 1e6 (1 / 4) (1 / 2) 1 (-(4 / 5)) 0 - ε → l'.mag.z < 0) ∧
      (passageTime (axisLayer 2e6 1e6 false) 2e6 1e6 (1 / 4) (1 / 2) 1 (-(4 / 5)) 0 + ε ≤ k * dt → 0 < l'.mag.z) := by
  refine C140_runs (axisLayer_regular 2e6 1e6 false) (axisLayer_axial 2e6 1e6 false) (by norm_num [axisLayer]) (by norm_num [axisLayer])
    one_pos (fun y hy => ?_) .RK4 ε hε T
  have h1 : -(4 / 5) ≤ y := by simpa [axisLayer] using hy.1
  have h2 : y ≤ 0 := hy.2
  rw [push, axisLayer_stiffness]
  simp only [spinPush, axisLayer, Layer.demo]
  norm_num
  nlinarith

example : |stiffness (axisLayer 2e6 1e6 false).Ms 1e6 (1 / 4) (1 / 2)| < |(2e6 : ℝ)| := by
  rw [axisLayer_stiffness]
  norm_num [abs_of_pos]

end Switching
