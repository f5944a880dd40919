import Verif.Spec.PyResistance
import Verif.Props.Resistance
import Verif.Model.PyVector
import Mathlib.Analysis.Calculus.Deriv.Prod
import Mathlib.Analysis.Calculus.Deriv.Comp
import Mathlib.Analysis.SpecialFunctions.Trigonometric.Deriv

set_option linter.unusedSectionVars false

/-!
C50: GMR helpers. C61: parallel and series combinations. C71: linearised resistance.
-/

open Spec

namespace PyResistance

/-- helper -/
theorem lit_half : (@OfScientific.ofScientific ℝ Scalar.instOfSci 5 true 1) = 1 / 2 := by
  rw [Scalar.ofSci_real_true]; norm_num
/-- helper -/
theorem lit_two : (@OfScientific.ofScientific ℝ Scalar.instOfSci 20 true 1) = 2 := by
  rw [Scalar.ofSci_real_true]; norm_num
/-- helper -/
theorem lit_one : (@OfScientific.ofScientific ℝ Scalar.instOfSci 10 true 1) = 1 := by
  rw [Scalar.ofSci_real_true]; norm_num
/-- helper -/
theorem getD_some {α : Type} (l : List α) (i : Nat) (d : α) (h : i < l.length) : l[i]? = some (l.getD i d) := by
  simp [List.getD, h]

/-! ## C50 -/

/-- C50: `compute_gmr` is the resistance of a junction with the same Rp and Rap. -/
theorem C50_gmr_partial (j : Junction ℝ) (hm : j.mrMode = .CLASSIC) (a b : Layer ℝ) (hl : j.layers = [a, b]) :
    j.getMagnetoresistance = .ok [computeGmr j.Rp j.Rap a.mag b.mag] ∧
    (a.mag.length = 1 → b.mag.length = 1 →
      computeGmr j.Rp j.Rap a.mag b.mag = gmr j.Rp j.Rap (Spec.angle a.mag b.mag)) := by
  have key : computeGmr j.Rp j.Rap a.mag b.mag = j.calculateMagnetoresistance (a.mag.dot b.mag) := by
    unfold computeGmr Junction.calculateMagnetoresistance dotSum CVec.dot
    simp only [lit_half, lit_one, lit_two, Scalar.ofNat_real, Nat.cast_one]
    ring
  refine ⟨?_, fun h1 h2 => by rw [key]; exact Junction.mr_eq_gmr j _ _ h1 h2⟩
  unfold Junction.getMagnetoresistance
  rw [hm, hl, key]

/-- C50: extreme values of `compute_gmr`. -/
theorem C50_extremes (Rp Rap : ℝ) (m : CVec ℝ) (h : m.x ^ 2 + m.y ^ 2 + m.z ^ 2 = 1) :
    computeGmr Rp Rap m m = Rp ∧ computeGmr Rp Rap m ⟨-m.x, -m.y, -m.z⟩ = Rap := by
  unfold computeGmr dotSum
  simp only [lit_half, Scalar.ofNat_real, Nat.cast_one]
  constructor
  · linear_combination (-(Rap - Rp) / 2) * h
  · linear_combination ((Rap - Rp) / 2) * h

/-- C50 is false of `calculate_magnetoresistance`: it has the sign of the angle dependence reversed and the wrong offset. It agrees
with `compute_gmr` exactly when the cosine is 1/2 (or Rp = Rap), and for parallel vectors it gives the mean of Rp and Rap. -/
theorem C50_sign_refuted (Rp Rap : ℝ) (m n : CVec ℝ) :
    (∃ R, calculateMagnetoresistance Rp Rap [m, n] = .ok R ∧
      (R = computeGmr Rp Rap m n ↔ Rp = Rap ∨ m.x * n.x + m.y * n.y + m.z * n.z = 1 / 2)) ∧
    (m.x ^ 2 + m.y ^ 2 + m.z ^ 2 = 1 → calculateMagnetoresistance Rp Rap [m, m] = .ok ((Rp + Rap) / 2)) ∧
    calculateMagnetoresistance (100 : ℝ) 200 [⟨1, 0, 0⟩, ⟨1, 0, 0⟩] ≠ .ok (computeGmr 100 200 ⟨1, 0, 0⟩ ⟨1, 0, 0⟩) := by
  refine ⟨⟨_, rfl, ?_⟩, fun h => ?_, ?_⟩
  · unfold computeGmr dotSum
    simp only [lit_half, Scalar.ofNat_real, Nat.cast_one]
    constructor
    · intro h
      have : (Rap - Rp) * (2 * (m.x * n.x + m.y * n.y + m.z * n.z) - 1) = 0 := by linarith
      rcases mul_eq_zero.1 this with h | h
      · left; linarith
      · right; linarith
    · rintro (h | h)
      · rw [h]; ring
      · rw [h]; ring
  · unfold calculateMagnetoresistance dotSum
    simp only [Scalar.ofSci_real_true]
    norm_num
    linear_combination ((Rap - Rp) / 2) * h
  · unfold calculateMagnetoresistance computeGmr dotSum
    simp only [Scalar.ofSci_real_true, Scalar.ofNat_real]
    norm_num

/-- C50: other numbers of layers are rejected. -/
theorem C50_layers (Rp Rap : ℝ) (m : List (CVec ℝ)) (h : m.length ≠ 2) :
    calculateMagnetoresistance Rp Rap m = .error .valueError := by
  rcases m with _ | ⟨a, _ | ⟨b, _ | ⟨c, m⟩⟩⟩ <;> first | rfl | simp at h

/-- C50: the angular form is `compute_gmr` of the unit vectors at elevation `θ` (measured from the xy plane) and azimuth `φ`. -/
theorem C50_angular (Rp Rap θ1 φ1 θ2 φ2 : ℝ) :
    angularGmr Rp Rap θ1 φ1 θ2 φ2 = computeGmr Rp Rap (VectorObj.fromSpherical (Real.pi / 2 - θ1) φ1 1)
      (VectorObj.fromSpherical (Real.pi / 2 - θ2) φ2 1) ∧
    angularGmr Rp Rap θ1 φ1 θ1 φ1 = Rp := by
  have e : ∀ θ φ : ℝ, angularVector θ φ = VectorObj.fromSpherical (Real.pi / 2 - θ) φ 1 := by
    intro θ φ
    unfold angularVector VectorObj.fromSpherical
    simp [Real.sin_pi_div_two_sub, Real.cos_pi_div_two_sub]
  refine ⟨by unfold angularGmr; rw [e, e], ?_⟩
  unfold angularGmr
  refine (C50_extremes Rp Rap _ ?_).1
  unfold angularVector
  simp only [Scalar.cos_real, Scalar.sin_real]
  linear_combination Real.sin_sq_add_cos_sq θ1 + Real.cos θ1 ^ 2 * Real.sin_sq_add_cos_sq φ1

/-- C50 is false of the angular form for the polar angles used elsewhere in the library: two layers along +z, given with the
azimuths 0 and π, are the same vector, yet the result is Rap. -/
theorem C50_polar_refuted (Rp Rap : ℝ) : VectorObj.fromSpherical (0 : ℝ) 0 1 = VectorObj.fromSpherical 0 Real.pi 1 ∧
    angularGmr Rp Rap 0 0 0 Real.pi = Rap := by
  constructor
  · unfold VectorObj.fromSpherical
    simp
  · unfold angularGmr computeGmr dotSum angularVector
    simp only [Scalar.cos_real, Scalar.sin_real, Real.cos_zero, Real.sin_zero, Real.cos_pi, Real.sin_pi, Scalar.ofSci_real_true,
      Scalar.ofNat_real]
    norm_num
    ring

/-- C50 is false of the linearised resistance: the y component of the second vector has the wrong sign, so two layers with the same
angles have the resistance `GMR sin²θ sin²φ` instead of 0. -/
theorem C50_linearised_refuted (GMR θ φ : ℝ) : linGmr GMR θ φ θ φ = GMR * (Real.sin θ ^ 2 * Real.sin φ ^ 2) ∧
    linGmr (1 : ℝ) (Real.pi / 2) (Real.pi / 2) (Real.pi / 2) (Real.pi / 2) = 1 := by
  have h : ∀ GMR θ φ : ℝ, linGmr GMR θ φ θ φ = GMR * (Real.sin θ ^ 2 * Real.sin φ ^ 2) := by
    intro GMR θ φ
    unfold linGmr dotSum linM1 linM2
    simp only [Scalar.cos_real, Scalar.sin_real, Scalar.ofSci_real_true, Scalar.ofNat_real]
    norm_num
    have h1 := Real.sin_sq_add_cos_sq θ
    have h2 := Real.sin_sq_add_cos_sq φ
    linear_combination (-GMR / 2) * h1 + (-GMR / 2 * Real.sin θ ^ 2) * h2
  refine ⟨h GMR θ φ, ?_⟩
  rw [h]
  simp

/-! ## C61 -/

/-- helper -/
theorem layerRows_eq {n nt : Nat} {Rx0 Ry0 AMR AHE SMR : List ℝ} {m : List (List (CVec ℝ))} {l w : List ℝ}
    (h : WellShaped n nt Rx0 Ry0 AMR AHE SMR m l w) (k i : Nat) (hi : i + k ≤ n) :
    layerRows Rx0 Ry0 AMR AHE SMR m l w i k = .ok
      ((List.range k).map (fun q => (List.range nt).map fun t => longitudinal Rx0 AMR SMR m (i + q) t),
       (List.range k).map (fun q => (List.range nt).map fun t => transverse Ry0 AMR AHE SMR m l w (i + q) t)) := by
  induction k generalizing i with
  | zero => rfl
  | succ k ih =>
    have hin : i < n := by omega
    have g1 : w[i]? = some (w.getD i 0) := by
      have := h.wid; exact getD_some _ _ _ (by omega)
    have g2 : l[i]? = some (l.getD i 0) := by
      have := h.len; exact getD_some _ _ _ (by omega)
    have g3 : Rx0[i]? = some (Rx0.getD i 0) := by
      have := h.rx; exact getD_some _ _ _ (by omega)
    have g4 : Ry0[i]? = some (Ry0.getD i 0) := by
      have := h.ry; exact getD_some _ _ _ (by omega)
    have g5 : AMR[i]? = some (AMR.getD i 0) := by
      have := h.amr; exact getD_some _ _ _ (by omega)
    have g6 : AHE[i]? = some (AHE.getD i 0) := by
      have := h.ahe; exact getD_some _ _ _ (by omega)
    have g7 : SMR[i]? = some (SMR.getD i 0) := by
      have := h.smr; exact getD_some _ _ _ (by omega)
    have g8 : m[i]? = some (m.getD i []) := by
      have := h.mag; exact getD_some _ _ _ (by omega)
    have hz : l.getD i 0 ≠ 0 := h.nonzero _ (List.mem_of_getElem? g2)
    have hrow : (m.getD i []).length = nt := h.samples _ (List.mem_of_getElem? g8)
    have hmap : ∀ f : CVec ℝ → ℝ, (m.getD i []).map f = (List.range nt).map fun t => f (sampleAt m i t) := by
      intro f
      unfold sampleAt
      generalize m.getD i [] = row at hrow
      subst hrow
      apply List.ext_getElem
      · simp
      · intro t h1 h2
        simp only [List.length_map] at h1
        simp [List.getD, h1]
    unfold layerRows
    rw [g1, g2]
    simp only
    rw [if_neg (by simpa using hz), g3, g4, g5, g6, g7, g8]
    simp only
    rw [ih (i + 1) (by omega)]
    simp only [Except.ok.injEq, Prod.mk.injEq]
    rw [List.range_succ_eq_map, List.map_cons, List.map_cons, List.map_map, List.map_map]
    constructor
    · congr 1
      · rw [hmap]
        refine List.map_congr_left fun t _ => ?_
        simp only [layerSample, longitudinal, Scalar.powi_real, add_zero]
        ring
      · refine List.map_congr_left fun q _ => ?_
        simp only [Function.comp, Nat.succ_eq_add_one]
        rw [show i + (q + 1) = i + 1 + q by ring]
    · congr 1
      · rw [hmap]
        refine List.map_congr_left fun t _ => ?_
        simp only [layerSample, transverse, Scalar.ofSci_real_true, add_zero]
        norm_num
        ring
      · refine List.map_congr_left fun q _ => ?_
        simp only [Function.comp, Nat.succ_eq_add_one]
        rw [show i + (q + 1) = i + 1 + q by ring]

/-- helper -/
theorem sumRows_eq (nt n : Nat) (r : Nat → Nat → ℝ) :
    sumRows nt ((List.range n).map fun i => (List.range nt).map fun t => r i t) =
      (List.range nt).map fun t => ∑ i ∈ Finset.range n, r i t := by
  unfold sumRows
  induction n with
  | zero =>
    simp only [List.range_zero, List.map_nil, List.foldl_nil, Finset.range_zero, Finset.sum_empty, List.map_const', List.length_range]
    simp
  | succ n ih =>
    rw [List.range_succ, List.map_append, List.foldl_append, ih]
    simp only [List.map_cons, List.map_nil, List.foldl_cons, List.foldl_nil, Finset.sum_range_succ]
    rw [List.zipWith_map, List.zipWith_self]

/-- C61: the series helper adds the resistances of the layers, the parallel helper adds their reciprocals, per direction and time
sample. -/
theorem C61_circuit {n nt : Nat} {Rx0 Ry0 AMR AHE SMR : List ℝ} {m : List (List (CVec ℝ))} {l w : List ℝ}
    (h : WellShaped n nt Rx0 Ry0 AMR AHE SMR m l w) :
    seriesResistance nt Rx0 Ry0 AMR AHE SMR m l w = .ok
      ((List.range nt).map (fun t => ∑ i ∈ Finset.range n, longitudinal Rx0 AMR SMR m i t),
       (List.range nt).map (fun t => ∑ i ∈ Finset.range n, transverse Ry0 AMR AHE SMR m l w i t)) ∧
    parallelResistance nt Rx0 Ry0 AMR AHE SMR m l w = .ok
      ((List.range nt).map (fun t => Spec.parallel n fun i => longitudinal Rx0 AMR SMR m i t),
       (List.range nt).map (fun t => Spec.parallel n fun i => transverse Ry0 AMR AHE SMR m l w i t)) := by
  have hc : computeResistance Rx0 Ry0 AMR AHE SMR m l w = _ := layerRows_eq h Rx0.length 0 (by rw [h.rx]; omega)
  rw [h.rx] at hc
  have e1 : ∀ x : ℝ, (1.0 : ℝ) / x = 1 / x := fun x => by norm_num
  constructor
  · unfold seriesResistance
    rw [hc]
    simp only [zero_add, sumRows_eq]
  · unfold parallelResistance
    rw [hc]
    have e : ∀ x : ℝ, @HDiv.hDiv ℝ ℝ ℝ _ (@OfScientific.ofScientific ℝ Scalar.instOfSci 10 true 1) x = 1 / x := fun x => by
      rw [Scalar.ofSci_real_true]; norm_num
    simp only [zero_add, List.map_map, Function.comp_def, e, sumRows_eq]
    rfl

/-- C61: errors of the helpers: a zero length of a layer (the default of `ResistanceParameters`), and no width or length given. -/
theorem C61_errors (nt : Nat) (Rx0 Ry0 AMR AHE SMR : List ℝ) (m : List (List (CVec ℝ))) (l w : List ℝ) (h : Rx0 ≠ []) :
    (l.head? = some 0 → w ≠ [] →
      seriesResistance nt Rx0 Ry0 AMR AHE SMR m l w = .error .zeroDivision ∧
      parallelResistance nt Rx0 Ry0 AMR AHE SMR m l w = .error .zeroDivision) ∧
    (w = [] ∨ l = [] → seriesResistance nt Rx0 Ry0 AMR AHE SMR m l w = .error .indexError ∧
      parallelResistance nt Rx0 Ry0 AMR AHE SMR m l w = .error .indexError) := by
  obtain ⟨r, Rx0, rfl⟩ := List.exists_cons_of_ne_nil h
  have hs : ∀ e, computeResistance (r :: Rx0) Ry0 AMR AHE SMR m l w = .error e →
      seriesResistance nt (r :: Rx0) Ry0 AMR AHE SMR m l w = .error e ∧
      parallelResistance nt (r :: Rx0) Ry0 AMR AHE SMR m l w = .error e := by
    intro e he
    unfold seriesResistance parallelResistance
    rw [he]
    exact ⟨rfl, rfl⟩
  constructor
  · intro hl hw
    obtain ⟨a, w, rfl⟩ := List.exists_cons_of_ne_nil hw
    rcases l with _ | ⟨b, l⟩
    · simp at hl
    · simp only [List.head?_cons, Option.some.injEq] at hl
      apply hs
      unfold computeResistance layerRows
      simp [hl]
  · intro hw
    apply hs
    unfold computeResistance layerRows
    rcases hw with rfl | rfl
    · simp
    · rcases w with _ | ⟨a, w⟩ <;> simp

/-- C61: for the same geometry factors the parallel helper gives the strip resistances of the C++ junction: its transverse
parameters are the longitudinal ones times width over length, with a minus sign for AMR. -/
theorem C61_strip (j : Junction ℝ) (hj : j.mrMode = .STRIP) (hl : j.MrOk) (AMR SMR l w : List ℝ)
    (h : WellShaped j.layers.length 1 j.Rx0 j.Ry0 AMR j.AHE SMR (j.layers.map fun a => [a.mag]) l w)
    (hAX : j.AMR_X = AMR) (hSX : j.SMR_X = SMR)
    (hAY : ∀ i < j.layers.length, j.AMR_Y.getD i 0 = -(w.getD i 0 / l.getD i 0 * AMR.getD i 0))
    (hSY : ∀ i < j.layers.length, j.SMR_Y.getD i 0 = w.getD i 0 / l.getD i 0 * SMR.getD i 0) :
    ∃ Rx Ry, parallelResistance 1 j.Rx0 j.Ry0 AMR j.AHE SMR (j.layers.map fun a => [a.mag]) l w = .ok ([Rx], [Ry]) ∧
      j.getMagnetoresistance = .ok [Rx, Ry, 0] := by
  refine ⟨_, _, (C61_circuit h).2, ?_⟩
  rw [Junction.C26_parallel j hj hl]
  have hs : ∀ i < j.layers.length, sampleAt (j.layers.map fun a => [a.mag]) i 0 = magAt j i := by
    intro i hi
    unfold sampleAt magAt
    rw [List.getElem?_eq_getElem hi]
    simp [List.getD, hi]
  have e1 : Spec.parallel j.layers.length (stripRx j) =
      Spec.parallel j.layers.length (fun i => longitudinal j.Rx0 AMR SMR (j.layers.map fun a => [a.mag]) i 0) := by
    unfold Spec.parallel
    congr 1
    refine Finset.sum_congr rfl fun i hi => ?_
    simp only [stripRx, longitudinal]
    rw [hs i (Finset.mem_range.1 hi), hAX, hSX]
  have e2 : Spec.parallel j.layers.length (stripRy j) =
      Spec.parallel j.layers.length (fun i => transverse j.Ry0 AMR j.AHE SMR (j.layers.map fun a => [a.mag]) l w i 0) := by
    unfold Spec.parallel
    congr 1
    refine Finset.sum_congr rfl fun i hi => ?_
    simp only [stripRy, transverse]
    rw [hs i (Finset.mem_range.1 hi), hAY i (Finset.mem_range.1 hi), hSY i (Finset.mem_range.1 hi)]
    congr 1
    ring
  rw [e1, e2]

/-- Two layers of 100 and 200 Ω without magnetoresistance: 300 Ω in series. -/
example : ∃ R, seriesResistance (T := ℝ) 1 [100, 200] [0, 0] [0, 0] [0, 0] [0, 0] [[⟨1, 0, 0⟩], [⟨0, 1, 0⟩]] [1, 1] [1, 1] = .ok R ∧
    R.1 = [300] := by
  have h : WellShaped 2 1 [100, 200] [0, 0] [0, 0] [0, 0] [0, 0] [[⟨1, 0, 0⟩], [⟨0, 1, 0⟩]] [1, 1] [1, 1] := by
    constructor <;> simp
  refine ⟨_, (C61_circuit h).1, ?_⟩
  norm_num [longitudinal, sampleAt, Finset.sum_range_succ]

/-! ## C71 -/

/-- helper: the sum of partial derivatives is the derivative along the line -/
theorem hasDerivAt_linearise {R : ℝ → ℝ → ℝ → ℝ → ℝ} {t1 p1 t2 p2 : ℝ}
    (hR : DifferentiableAt ℝ (fun v : ℝ × ℝ × ℝ × ℝ => R v.1 v.2.1 v.2.2.1 v.2.2.2) (t1, p1, t2, p2)) (dt1 dp1 dt2 dp2 : ℝ) :
    HasDerivAt (fun s => R (t1 + s * dt1) (p1 + s * dp1) (t2 + s * dt2) (p2 + s * dp2))
      (linearise R t1 p1 t2 p2 dt1 dp1 dt2 dp2) 0 := by
  have hF := hR.hasFDerivAt
  set F := fderiv ℝ (fun v : ℝ × ℝ × ℝ × ℝ => R v.1 v.2.1 v.2.2.1 v.2.2.2) (t1, p1, t2, p2) with hFdef
  have line : ∀ a b : ℝ, HasDerivAt (fun s : ℝ => a + s * b) b 0 := fun a b => by
    simpa using ((hasDerivAt_id (0 : ℝ)).mul_const b).const_add a
  have key : ∀ {c : ℝ → ℝ × ℝ × ℝ × ℝ} {c' : ℝ × ℝ × ℝ × ℝ} {x : ℝ}, HasDerivAt c c' x → c x = (t1, p1, t2, p2) →
      HasDerivAt (fun s => R (c s).1 (c s).2.1 (c s).2.2.1 (c s).2.2.2) (F c') x := by
    intro c c' x hc hx
    rw [← hx] at hF
    exact hF.comp_hasDerivAt x hc
  have d1 : deriv (fun x => R x p1 t2 p2) t1 = F (1, 0, 0, 0) :=
    (key (c := fun x => (x, p1, t2, p2))
      ((hasDerivAt_id t1).prodMk ((hasDerivAt_const t1 p1).prodMk ((hasDerivAt_const t1 t2).prodMk (hasDerivAt_const t1 p2)))) rfl).deriv
  have d2 : deriv (fun x => R t1 x t2 p2) p1 = F (0, 1, 0, 0) :=
    (key (c := fun x => (t1, x, t2, p2))
      ((hasDerivAt_const p1 t1).prodMk ((hasDerivAt_id p1).prodMk ((hasDerivAt_const p1 t2).prodMk (hasDerivAt_const p1 p2)))) rfl).deriv
  have d3 : deriv (fun x => R t1 p1 x p2) t2 = F (0, 0, 1, 0) :=
    (key (c := fun x => (t1, p1, x, p2))
      ((hasDerivAt_const t2 t1).prodMk ((hasDerivAt_const t2 p1).prodMk ((hasDerivAt_id t2).prodMk (hasDerivAt_const t2 p2)))) rfl).deriv
  have d4 : deriv (fun x => R t1 p1 t2 x) p2 = F (0, 0, 0, 1) :=
    (key (c := fun x => (t1, p1, t2, x))
      ((hasDerivAt_const p2 t1).prodMk ((hasDerivAt_const p2 p1).prodMk ((hasDerivAt_const p2 t2).prodMk (hasDerivAt_id p2)))) rfl).deriv
  have hl : linearise R t1 p1 t2 p2 dt1 dp1 dt2 dp2 = F (dt1, dp1, dt2, dp2) := by
    unfold linearise
    rw [d1, d2, d3, d4]
    have : ((dt1, dp1, dt2, dp2) : ℝ × ℝ × ℝ × ℝ) = dt1 • (1, 0, 0, 0) + dp1 • (0, 1, 0, 0) + dt2 • (0, 0, 1, 0) + dp2 • (0, 0, 0, 1) := by
      simp
    rw [this, map_add, map_add, map_add, map_smul, map_smul, map_smul, map_smul]
    simp only [smul_eq_mul]
    ring
  rw [hl]
  exact key (c := fun s => (t1 + s * dt1, p1 + s * dp1, t2 + s * dt2, p2 + s * dp2))
    ((line t1 dt1).prodMk ((line p1 dp1).prodMk ((line t2 dt2).prodMk (line p2 dp2)))) (by simp)

/-- C71: the linearised series resistance is the derivative of the series resistance when the angles move along the given
direction, for all angles and parameters; the second value is the resistance at the stationary angles. -/
theorem C71_series (GMR : ℝ) (AMR SMR : ℝ × ℝ) (t1 p1 t2 p2 dt1 dp1 dt2 dp2 : ℝ) :
    HasDerivAt (fun s => rSeries GMR AMR SMR (t1 + s * dt1) (p1 + s * dp1) (t2 + s * dt2) (p2 + s * dp2))
      (linearisedSeries GMR AMR SMR t1 p1 t2 p2 dt1 dp1 dt2 dp2).1 0 ∧
    (linearisedSeries GMR AMR SMR t1 p1 t2 p2 dt1 dp1 dt2 dp2).2 = rSeries GMR AMR SMR t1 p1 t2 p2 := by
  refine ⟨hasDerivAt_linearise ?_ _ _ _ _, rfl⟩
  unfold rSeries linGmr linRxx dotSum linM1 linM2
  simp only [Scalar.sin_real, Scalar.cos_real, Scalar.powi_real]
  fun_prop

/-- C71: the same for the parallel resistance, where its denominator is not zero. -/
theorem C71_parallel (GMR : ℝ) (AMR SMR : ℝ × ℝ) (t1 p1 t2 p2 dt1 dp1 dt2 dp2 : ℝ)
    (h : linRxx AMR.1 SMR.1 (linM1 t1 p1) + linRxx AMR.2 SMR.2 (linM2 t2 p2) + 1e-15 ≠ 0) :
    HasDerivAt (fun s => rParallel GMR AMR SMR (t1 + s * dt1) (p1 + s * dp1) (t2 + s * dt2) (p2 + s * dp2))
      (linearisedParallel GMR AMR SMR t1 p1 t2 p2 dt1 dp1 dt2 dp2).1 0 ∧
    (linearisedParallel GMR AMR SMR t1 p1 t2 p2 dt1 dp1 dt2 dp2).2 = rParallel GMR AMR SMR t1 p1 t2 p2 := by
  refine ⟨hasDerivAt_linearise ?_ _ _ _ _, rfl⟩
  have he : (eps : ℝ) = 1e-15 := by
    unfold eps; rw [Scalar.ofSci_real_true]
  unfold rParallel
  rw [he]
  split
  · unfold linGmr linRxx dotSum linM1 linM2 at *
    simp only [Scalar.sin_real, Scalar.cos_real, Scalar.powi_real] at *
    refine DifferentiableAt.add (by fun_prop) ?_
    simp only [div_eq_mul_inv]
    exact DifferentiableAt.mul (by fun_prop) (DifferentiableAt.fun_inv (by fun_prop) (by exact h))
  · unfold linGmr dotSum linM1 linM2
    simp only [Scalar.sin_real, Scalar.cos_real]
    fun_prop

/-- C71: with positive coefficients the denominator is positive. -/
theorem C71_denominator (AMR SMR : ℝ × ℝ) (t1 p1 t2 p2 : ℝ) (h1 : 0 ≤ AMR.1) (h2 : 0 ≤ AMR.2) (h3 : 0 ≤ SMR.1) (h4 : 0 ≤ SMR.2) :
    0 < linRxx AMR.1 SMR.1 (linM1 t1 p1) + linRxx AMR.2 SMR.2 (linM2 t2 p2) + (1e-15 : ℝ) := by
  unfold linRxx
  simp only [Scalar.powi_real]
  positivity

/-- C71: the two circuits in terms of the angles. With `r₁ = AMR₁ m₁ₓ² + SMR₁ m₁ᵧ²` and `r₂ = AMR₂ m₂ₓ² + SMR₂ m₂ᵧ²`, the layers in series
add `r₁ + r₂` to the GMR term, the layers in parallel `r₁ r₂ / (r₁ + r₂ + 1e-15)`, whichever of the coefficients are zero. -/
theorem C71_circuits (GMR : ℝ) (AMR SMR : ℝ × ℝ) (t1 p1 t2 p2 : ℝ) (g r₁ r₂ : ℝ)
    (hg : g = GMR * (1 - (Real.sin t1 * Real.cos p1 * (Real.sin t2 * Real.cos p2) - Real.sin t1 * Real.sin p1 * (Real.sin t2 * Real.sin p2) +
      Real.cos t1 * Real.cos t2)) / 2)
    (h1 : r₁ = AMR.1 * (Real.sin t1 * Real.cos p1) ^ 2 + SMR.1 * (Real.sin t1 * Real.sin p1) ^ 2)
    (h2 : r₂ = AMR.2 * (Real.sin t2 * Real.cos p2) ^ 2 + SMR.2 * (Real.sin t2 * Real.sin p2) ^ 2) :
    rSeries GMR AMR SMR t1 p1 t2 p2 = g + r₁ + r₂ ∧
      rParallel GMR AMR SMR t1 p1 t2 p2 = g + r₁ * r₂ / (r₁ + r₂ + 1 / 10 ^ 15) := by
  have e0 : linGmr GMR t1 p1 t2 p2 = g := by
    rw [hg]
    unfold linGmr dotSum linM1 linM2
    simp only [Scalar.sin_real, Scalar.cos_real, Scalar.ofSci_real_true, Scalar.ofNat_real]
    push_cast
    ring
  have e1 : linRxx AMR.1 SMR.1 (linM1 t1 p1) = r₁ := by
    rw [h1]
    unfold linRxx linM1
    simp only [Scalar.sin_real, Scalar.cos_real, Scalar.powi_real]
  have e2 : linRxx AMR.2 SMR.2 (linM2 t2 p2) = r₂ := by
    rw [h2]
    unfold linRxx linM2
    simp only [Scalar.sin_real, Scalar.cos_real, Scalar.powi_real]
    ring
  have e3 : (eps : ℝ) = 1 / 10 ^ 15 := by
    unfold eps
    simp only [Scalar.ofSci_real_true]
    norm_num
  refine ⟨by unfold rSeries; rw [e0, e1, e2], ?_⟩
  unfold rParallel
  rw [e0, e1, e2, e3]
  split_ifs with h
  · rfl
  · have : AMR.1 = 0 ∧ SMR.1 = 0 := by
      simp only [anyNonzero, Scalar.eqb_real, Bool.or_eq_true, Bool.not_eq_true', decide_eq_false_iff_not, not_or, not_not,
        Scalar.ofNat_real, Nat.cast_zero] at h
      exact ⟨h.1.1.1, h.1.2⟩
    have z : r₁ = 0 := by rw [h1, this.1, this.2]; ring
    rw [z]
    simp

/-- Two layers along y with spin Hall magnetoresistances 2 and 3: 5 in series on top of a GMR at its maximum, for `m₂` has the opposite sign. -/
example : rSeries (1 : ℝ) (0, 0) (2, 3) (Real.pi / 2) (Real.pi / 2) (Real.pi / 2) (Real.pi / 2) = 6 := by
  rw [(C71_circuits 1 (0, 0) (2, 3) (Real.pi / 2) (Real.pi / 2) (Real.pi / 2) (Real.pi / 2) _ _ _ rfl rfl rfl).1]
  simp
  norm_num

/-- Opposite layers along ±x, the second turning in the plane by its azimuth: no first-order change of the GMR. -/
example : (linearisedSeries 1 (0, 0) (0, 0) (Real.pi / 2) 0 (Real.pi / 2) 0 0 0 1 0).1 = 0 := by
  have h := (C71_series 1 (0, 0) (0, 0) (Real.pi / 2) 0 (Real.pi / 2) 0 0 0 1 0).1
  refine h.unique ?_
  have e : (fun s : ℝ => rSeries (1 : ℝ) (0, 0) (0, 0) (Real.pi / 2 + s * 0) (0 + s * 0) (Real.pi / 2 + s * 1) (0 + s * 0)) =
      fun s => (1 - Real.cos s) / 2 := by
    funext s
    unfold rSeries linGmr linRxx dotSum linM1 linM2
    simp only [Scalar.sin_real, Scalar.cos_real, Scalar.powi_real, Scalar.ofSci_real_true, Scalar.ofNat_real]
    rw [mul_one, add_comm (Real.pi / 2) s, Real.sin_add_pi_div_two]
    simp
    norm_num
  rw [e]
  simpa using ((Real.hasDerivAt_cos 0).const_sub 1).div_const 2

end PyResistance
