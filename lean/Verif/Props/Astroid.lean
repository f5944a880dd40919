import Verif.Props.Antiferro
import Mathlib.Analysis.MeanInequalities
import Mathlib.Analysis.SpecialFunctions.Pow.Real

set_option linter.unusedSectionVars false
set_option linter.unusedSimpArgs false

/-!
# C143: the Stoner-Wohlfarth astroid

Specification: a single layer with an easy axis along `z` in a constant field of any direction. Theory: in the plane of the field
components across and along the axis, in units of the anisotropy field, the curve `|hx|^(2/3) + |hz|^(2/3) = 1` separates the fields in
which the layer keeps its orientation from those in which it always ends in the same state.
-/

namespace Spec
open Layer

/-- The junction holds one damped layer `l` that can be simulated, without spin torques and couplings, in the constant field `F`, with
the easy axis `z` and the anisotropy field `k` (material and shape taken together). -/
structure EasyAxis (j : Junction ℝ) (l : Layer ℝ) (F : CVec ℝ) (k : ℝ) : Prop where
  single : j.layers = [l]
  alone : Alone l
  damping : 0 < l.damping
  field : staticField l = F
  axis : l.anis = ⟨0, 0, 1⟩
  shape : ∃ n N, l.demagTensor = ⟨⟨n, 0, 0⟩, ⟨0, n, 0⟩, ⟨0, 0, N⟩⟩ ∧ stiffness l.Ms (l.anisotropyDriver.value 0) n N = k
  unit : l.mag.length = 1
  quiet : ¬ Noisy l
  smooth : SmoothDrivers l

/-- The size of the field across the easy axis. -/
noncomputable def acrossAxis (F : CVec ℝ) : ℝ := √(F.x ^ 2 + F.y ^ 2)

/-- The field lies inside, or outside, the astroid of the anisotropy field `k`. -/
def InsideAstroid (F : CVec ℝ) (k : ℝ) : Prop :=
  acrossAxis F ^ (2 / 3 : ℝ) + |F.z| ^ (2 / 3 : ℝ) < k ^ (2 / 3 : ℝ)
def OutsideAstroid (F : CVec ℝ) (k : ℝ) : Prop :=
  k ^ (2 / 3 : ℝ) < acrossAxis F ^ (2 / 3 : ℝ) + |F.z| ^ (2 / 3 : ℝ)

/-- The energy of the direction `m`, per moment. -/
noncomputable def axisEnergy (F : CVec ℝ) (k : ℝ) (m : CVec ℝ) : ℝ := -F.dot m - k / 2 * m.z ^ 2

/-- The simulation brings the layer to the state `M`. -/
def ComesTo (j : Junction ℝ) (M : CVec ℝ) : Prop :=
  ∀ (mode : SolverMode) (ε : ℝ), 0 < ε → ∃ S : ℝ, ∀ T : ℝ, ∃ r : ℝ, 0 < r ∧ ∀ (n : Nat) (dt : ℝ), 0 < dt → dt ≤ r → S ≤ n * dt →
    n * dt ≤ T → ∀ (we : Nat) (en : Bool) (k : Junction ℝ), LoopEnds j mode n dt we en k → ∀ l ∈ k.layers, (l.mag - M).length ≤ ε

/-- The simulation keeps the component along the easy axis, counted in the direction `σ`, above `x`. -/
def KeepsAbove (j : Junction ℝ) (σ x : ℝ) : Prop :=
  ∀ (mode : SolverMode) (T : ℝ), ∃ r : ℝ, 0 < r ∧ ∀ (n : Nat) (dt : ℝ), 0 < dt → dt ≤ r → n * dt ≤ T →
    ∀ (we : Nat) (en : Bool) (k : Junction ℝ), LoopEnds j mode n dt we en k → ∀ l ∈ k.layers, x < σ * l.mag.z

/-- The state `m` lies in the energy well around the direction `σ` of the easy axis: beyond the height `x` and below every state
of that height in energy. -/
def InWell (F : CVec ℝ) (k σ x : ℝ) (m : CVec ℝ) : Prop :=
  x < σ * m.z ∧ ∀ u : CVec ℝ, u.length = 1 → σ * u.z = x → axisEnergy F k m < axisEnergy F k u

end Spec

namespace Astroid
open Spec Layer Junction Relax Antiferro Order Filter Topology

/-- helper: the field on the magnetisation, up to a part along it -/
noncomputable def pull (F : CVec ℝ) (k : ℝ) (m : CVec ℝ) : CVec ℝ := ⟨F.x, F.y, F.z + k * m.z⟩

variable {j : Junction ℝ} {l : Layer ℝ} {F : CVec ℝ} {k : ℝ}

theorem torque (h : EasyAxis j l F k) (t : ℝ) (m : CVec ℝ) :
    m.cross (field l t m ⟨0, 0, 0⟩ ⟨0, 0, 0⟩) = m.cross (pull F k m) := by
  obtain ⟨n, N, hn, hk⟩ := h.shape
  have hms : l.Ms ≠ 0 := fun e => by have := h.alone.moment; rw [e, zero_mul] at this; exact lt_irrefl _ this
  rw [field_alone h.alone, ← hk]
  simp only [ownField, belowField, h.field, h.axis, hn, tensor_rest, exchangeField, anisField, smul, pull, stiffness, tensorField]
  apply CVec.ext <;> simp [CVec.cross] <;> field_simp <;> ring

/-- C143: up to a constant the energy of the simulated stack is the moment of the layer times the energy of theory. -/
theorem C143_energy (h : EasyAxis j l F k) : ∃ c : ℝ, ∀ m : Nat → CVec ℝ, (m 0).length = 1 →
    stackEnergy j.layers m = l.Ms * l.thickness * axisEnergy F k (m 0) + c := by
  obtain ⟨n, N, hn, hk⟩ := h.shape
  have hms : l.Ms ≠ 0 := fun e => by have := h.alone.moment; rw [e, zero_mul] at this; exact lt_irrefl _ this
  refine ⟨l.Ms * l.thickness * (1 / 2 * (l.Ms / (1257 / 10 ^ 9) * n)), fun m h0 => ?_⟩
  have h0 := sq_unit h0
  have e : stackEnergy [l] m = layerEnergy l (m 0) ⟨0, 0, 0⟩ :=
    Fin.sum_univ_one (fun i : Fin 1 => layerEnergy [l][i] (m i) (if i.1 + 1 < 1 then m (i + 1) else ⟨0, 0, 0⟩))
  rw [h.single, e, ← hk]
  generalize m 0 = u at *
  simp only [layerEnergy, h.field, h.axis, hn, tensor_rest, axisEnergy, stiffness, tensorField, CVec.dot, CVec.normSq] at *
  have hx : u.x ^ 2 + u.y ^ 2 = 1 - u.z ^ 2 := by linarith
  field_simp
  linear_combination (norm := (norm_num; ring_nf)) (1257 * l.thickness * l.Ms ^ 2 * n) * hx

/-! ## States of rest -/

/-- helper: the force at a state of rest points along it -/
theorem along {m : CVec ℝ} (hm : m.normSq = 1) (hr : m.cross (pull F k m) = ⟨0, 0, 0⟩) :
    F.x = m.dot (pull F k m) * m.x ∧ F.y = m.dot (pull F k m) * m.y ∧ F.z + k * m.z = m.dot (pull F k m) * m.z := by
  have hx := congrArg CVec.x hr
  have hy := congrArg CVec.y hr
  have hz := congrArg CVec.z hr
  simp only [CVec.cross, CVec.dot, CVec.normSq, pull] at *
  refine ⟨?_, ?_, ?_⟩
  · linear_combination -F.x * hm - m.y * hz + m.z * hy
  · linear_combination -F.y * hm + m.x * hz - m.z * hx
  · linear_combination -(F.z + k * m.z) * hm - m.x * hy + m.y * hx

/-- helper: energies relative to a state where the force is `c` times the state -/
theorem relative {m M : CVec ℝ} {c : ℝ} (hm : m.normSq = 1) (hM : M.normSq = 1) (hx : F.x = c * M.x) (hy : F.y = c * M.y)
    (hz : F.z + k * M.z = c * M.z) :
    axisEnergy F k m - axisEnergy F k M = c / 2 * (m - M).normSq - k / 2 * (m.z - M.z) ^ 2 := by
  have hz' : F.z = c * M.z - k * M.z := by linarith
  simp only [axisEnergy, CVec.dot, CVec.normSq, CVec.sub_x, CVec.sub_y, CVec.sub_z] at *
  rw [hx, hy, hz']
  linear_combination -(c / 2) * hm + (c / 2) * hM

/-- helper: Hölder's inequality for two terms -/
theorem holder {p q s c : ℝ} (hp : 0 ≤ p) (hq : 0 ≤ q) (hs : 0 ≤ s) (hc : 0 ≤ c) (h1 : s ^ 2 + c ^ 2 = 1) :
    (p * s) ^ (2 / 3 : ℝ) + (q * c) ^ (2 / 3 : ℝ) ≤ (p + q) ^ (2 / 3 : ℝ) := by
  have hpq : Real.HolderConjugate (3 / 2) 3 := by
    rw [Real.holderConjugate_iff]; norm_num
  have h := Real.inner_le_Lp_mul_Lq_of_nonneg Finset.univ (f := ![p ^ (2 / 3 : ℝ), q ^ (2 / 3 : ℝ)])
    (g := ![s ^ (2 / 3 : ℝ), c ^ (2 / 3 : ℝ)]) hpq
    (fun i _ => by fin_cases i <;> simp <;> positivity) (fun i _ => by fin_cases i <;> simp <;> positivity)
  have e : ∀ x : ℝ, 0 ≤ x → (x ^ (2 / 3 : ℝ)) ^ (3 / 2 : ℝ) = x := fun x hx => by
    rw [← Real.rpow_mul hx]; norm_num
  have e3 : ∀ x : ℝ, 0 ≤ x → (x ^ (2 / 3 : ℝ)) ^ (3 : ℝ) = x ^ 2 := fun x hx => by
    rw [← Real.rpow_mul hx]; norm_num
  simp only [Fin.sum_univ_two, Matrix.cons_val_zero, Matrix.cons_val_one, e p hp, e q hq, e3 s hs, e3 c hc, h1, Real.one_rpow, mul_one] at h
  rw [Real.mul_rpow hp hs, Real.mul_rpow hq hc]
  norm_num at h ⊢
  exact h

/-- helper: outside the astroid the force at a state of rest points against it, or along it and exceeds the anisotropy field -/
theorem rest_outside (ho : OutsideAstroid F k) {m : CVec ℝ} (hm : m.normSq = 1) (hr : m.cross (pull F k m) = ⟨0, 0, 0⟩) :
    m.dot (pull F k m) < 0 ∨ k < m.dot (pull F k m) := by
  obtain ⟨hx, hy, hz⟩ := along hm hr
  set c := m.dot (pull F k m)
  by_contra hcon
  rw [not_or, not_lt, not_lt] at hcon
  obtain ⟨h0, h1⟩ := hcon
  have ea : acrossAxis F = c * √(m.x ^ 2 + m.y ^ 2) := by
    rw [acrossAxis, hx, hy, show (c * m.x) ^ 2 + (c * m.y) ^ 2 = c ^ 2 * (m.x ^ 2 + m.y ^ 2) by ring, Real.sqrt_mul (sq_nonneg c),
      Real.sqrt_sq h0]
  have eb : |F.z| = (k - c) * |m.z| := by
    rw [show F.z = -((k - c) * m.z) by linarith, abs_neg, abs_mul, abs_of_nonneg (sub_nonneg.2 h1)]
  have := holder (p := c) (q := k - c) (s := √(m.x ^ 2 + m.y ^ 2)) (c := |m.z|) h0 (sub_nonneg.2 h1) (Real.sqrt_nonneg _) (abs_nonneg _)
    (by rw [Real.sq_sqrt (by positivity), sq_abs]; simpa only [CVec.normSq] using hm)
  rw [← ea, ← eb, add_sub_cancel] at this
  exact absurd ho (not_lt.2 this)

/-- helper: continuity on the sphere -/
theorem cont_energy (F : CVec ℝ) (k : ℝ) : Continuous fun v : V => axisEnergy F k (ofV v) := by
  simp only [axisEnergy, CVec.dot, ofV_x, ofV_y, ofV_z]
  fun_prop

theorem cont_torque (F : CVec ℝ) (k : ℝ) : Continuous fun v : V => ((ofV v).cross (pull F k (ofV v))).normSq := by
  simp only [pull, CVec.cross, CVec.normSq, ofV_x, ofV_y, ofV_z]
  fun_prop

theorem unit_ofV {v : V} (hv : v ∈ Metric.sphere (0 : V) 1) : (ofV v).normSq = 1 := by
  refine sq_unit ?_
  rw [← norm_toV, toV_ofV]
  simpa using hv

theorem zero_of_normSq {w : CVec ℝ} (h : w.normSq = 0) : w = ⟨0, 0, 0⟩ := by
  simp only [CVec.normSq] at h
  apply CVec.ext <;> simp only <;> nlinarith [sq_nonneg w.x, sq_nonneg w.y, sq_nonneg w.z]

theorem unit_of_normSq {w : CVec ℝ} (h : w.normSq = 1) : w.length = 1 := by rw [CVec.length_eq, h, Real.sqrt_one]

/-- C143: outside the astroid there is one state of least energy, with a force along it that exceeds the anisotropy field; it is the
only state of rest besides states of greatest energy. -/
theorem C143_single (hk : 0 < k) (ho : OutsideAstroid F k) : ∃ M : CVec ℝ, M.length = 1 ∧
    (∀ m : CVec ℝ, m.length = 1 → m ≠ M → axisEnergy F k M < axisEnergy F k m) ∧
    ∀ m : CVec ℝ, m.length = 1 → m.cross ⟨F.x, F.y, F.z + k * m.z⟩ = ⟨0, 0, 0⟩ →
      m = M ∨ ∀ u : CVec ℝ, u.length = 1 → axisEnergy F k u ≤ axisEnergy F k m := by
  obtain ⟨v, hv, hmin⟩ := (isCompact_sphere (0 : V) 1).exists_isMinOn (NormedSpace.sphere_nonempty.2 zero_le_one)
    (cont_energy F k).continuousOn
  have hM := unit_ofV hv
  set M := ofV v with hMd
  have hle : ∀ m : CVec ℝ, m.normSq = 1 → axisEnergy F k M ≤ axisEnergy F k m := by
    intro m hm
    have : toV m ∈ Metric.sphere (0 : V) 1 := by simp [norm_toV, unit_of_normSq hm]
    simpa using hmin this
  -- convexity: the direction of the force has less energy
  have conv : ∀ m u : CVec ℝ, m.normSq = 1 → u.normSq = 1 →
      axisEnergy F k u ≤ axisEnergy F k m - (u.dot (pull F k m) - m.dot (pull F k m)) := by
    intro m u _ _
    simp only [axisEnergy, pull, CVec.dot]
    nlinarith [mul_nonneg hk.le (sq_nonneg (u.z - m.z))]
  have hpos : M.cross (pull F k M) = ⟨0, 0, 0⟩ ∧ 0 ≤ M.dot (pull F k M) := by
    have lg := lagrange hM (pull F k M)
    rcases eq_or_ne (pull F k M).length 0 with e | e
    · have e0 : (pull F k M).normSq = 0 := by rw [← sq_length, e]; norm_num
      rw [e0] at lg
      have h1 := normSq_nonneg (M.cross (pull F k M))
      exact ⟨zero_of_normSq (by nlinarith [sq_nonneg (M.dot (pull F k M))]), by
        have : M.dot (pull F k M) ^ 2 = 0 := by nlinarith [sq_nonneg (M.dot (pull F k M))]
        rw [pow_eq_zero_iff (by norm_num)] at this
        exact this.ge⟩
    · have hl : 0 < (pull F k M).length := lt_of_le_of_ne (length_nonneg _) (Ne.symm e)
      set P := pull F k M with hP
      have hs := sq_length P
      have hu : (smul (1 / P.length) P).normSq = 1 := by
        have : (smul (1 / P.length) P).normSq = (1 / P.length) ^ 2 * P.normSq := by simp only [smul, CVec.normSq]; ring
        rw [this, ← hs]; field_simp
      have hd : (smul (1 / P.length) P).dot P = P.length := by
        have : (smul (1 / P.length) P).dot P = 1 / P.length * P.normSq := by simp only [smul, CVec.normSq, CVec.dot]; ring
        rw [this, ← hs]; field_simp
      have h1 := conv M _ hM hu
      have h2 := hle _ hu
      rw [← hP, hd] at h1
      have h3 : P.length ≤ M.dot P := by linarith
      refine ⟨zero_of_normSq ?_, hl.le.trans h3⟩
      have := normSq_nonneg (M.cross P)
      nlinarith
  have hrest := along hM hpos.1
  have hgt : k < M.dot (pull F k M) := (rest_outside ho hM hpos.1).resolve_left (not_lt.2 hpos.2)
  have strict : ∀ N : CVec ℝ, N.normSq = 1 → N.cross (pull F k N) = ⟨0, 0, 0⟩ → k < N.dot (pull F k N) → ∀ m : CVec ℝ, m.normSq = 1 →
      m ≠ N → axisEnergy F k N < axisEnergy F k m := by
    intro N hN hr hg m hm hne
    obtain ⟨hx, hy, hz⟩ := along hN hr
    have e := relative hm hN hx hy hz
    have hp : 0 < (m - N).normSq := by
      refine lt_of_le_of_ne (normSq_nonneg _) fun e0 => hne ?_
      have := zero_of_normSq e0.symm
      have hx := congrArg CVec.x this
      have hy := congrArg CVec.y this
      have hz := congrArg CVec.z this
      simp only [CVec.sub_x, CVec.sub_y, CVec.sub_z, sub_eq_zero] at hx hy hz
      exact CVec.ext hx hy hz
    have hz2 : (m.z - N.z) ^ 2 ≤ (m - N).normSq := by
      simp only [CVec.normSq, CVec.sub_x, CVec.sub_y, CVec.sub_z]
      nlinarith [sq_nonneg (m.x - N.x), sq_nonneg (m.y - N.y)]
    nlinarith
  refine ⟨M, unit_of_normSq hM, fun m hm hne => strict M hM hpos.1 hgt m (sq_unit hm) hne, fun m hm hr => ?_⟩
  have hm := sq_unit hm
  rcases rest_outside ho hm hr with hg | hg
  · right
    intro u hu
    obtain ⟨hx, hy, hz⟩ := along hm hr
    have e := relative (sq_unit hu) hm hx hy hz
    nlinarith [mul_nonneg hk.le (sq_nonneg (u.z - m.z)), normSq_nonneg (u - m)]
  · left
    by_contra hne
    have h1 := strict m hm hr hg M hM (Ne.symm hne)
    have h2 := hle m hm
    linarith

/-! ## Motion -/

theorem passive (h : EasyAxis j l F k) : Passive j.layers := by
  rw [h.single]
  refine ⟨fun l' hl => ?_, fun i lo up h1 h2 => ?_⟩
  · obtain rfl : l' = l := by simpa using hl
    exact h.alone
  · have := List.getElem?_eq_some_iff.1 h2
    obtain ⟨hlt, -⟩ := this
    simp at hlt

theorem get (h : EasyAxis j l F k) : j.layers[0]? = some l := by rw [h.single]; rfl

theorem track (h : EasyAxis j l F k) : ∃ m, ∀ T, 0 ≤ T → Track j m T := by
  have mem : ∀ l' ∈ j.layers, l' = l := fun l' hl => by simpa [h.single] using hl
  refine C111_global j (fun l' hl => mem l' hl ▸ h.unit) (fun l' hl => mem l' hl ▸ h.alone.moment.ne') (fun l' hl => mem l' hl ▸ h.quiet)
    (fun l' hl => mem l' hl ▸ h.smooth) fun l' hl _ _ _ _ _ _ e => ?_
  rw [mem l' hl, h.alone.noStt] at e; cases e

variable {m : Nat → ℝ → CVec ℝ}

theorem unit_at (h : EasyAxis j l F k) (hm : ∀ T, 0 ≤ T → Track j m T) {t : ℝ} (ht : 0 ≤ t) : (m 0 t).length = 1 :=
  track_unit (hm t ht) ⟨ht, le_rfl⟩ (get h)

theorem start (h : EasyAxis j l F k) (hm : ∀ T, 0 ≤ T → Track j m T) : m 0 0 = l.mag := (hm 0 le_rfl).start 0 l (get h)

/-- helper: the energy never rises -/
theorem energy_falls (h : EasyAxis j l F k) (hm : ∀ T, 0 ≤ T → Track j m T) {t : ℝ} (ht : 0 ≤ t) :
    axisEnergy F k (m 0 t) ≤ axisEnergy F k l.mag := by
  obtain ⟨lo, hi, hlo, hhi, hmo⟩ := (hm t ht).solves
  have hd := C123_decreases (passive h) hmo (a := 0) (b := t) ⟨hlo, by linarith⟩ ⟨by linarith, hhi⟩ ht
  obtain ⟨c, hc⟩ := C143_energy h
  have e1 := hc (fun i => m i 0) (unit_at h hm le_rfl)
  have e2 := hc (fun i => m i t) (unit_at h hm ht)
  beta_reduce at hd e1 e2
  rw [e1, e2, start h hm] at hd
  exact le_of_mul_le_mul_left (by linarith) h.alone.moment

/-- helper: the torque dies out -/
theorem torque_dies (h : EasyAxis j l F k) (hm : ∀ T, 0 ≤ T → Track j m T) :
    Tendsto (fun t => ((m 0 t).cross (pull F k (m 0 t))).normSq) atTop (𝓝 0) := by
  have t0 := C123_settles hm (passive h) (get h) h.damping
  have := sq_tendsto t0
  refine this.congr fun t => ?_
  have e : upper j.layers.length m 0 t = ⟨0, 0, 0⟩ := by rw [h.single]; rfl
  have e' : lower m 0 t = ⟨0, 0, 0⟩ := rfl
  rw [e, e', torque h]

/-- C143, for the equation of motion: outside the astroid every start that is not a state of greatest energy ends in the one state of
least energy. -/
theorem C143_forgets (hk : 0 < k) (ho : OutsideAstroid F k) {M : CVec ℝ} (hM : M.length = 1)
    (hmin : ∀ m : CVec ℝ, m.length = 1 → axisEnergy F k M ≤ axisEnergy F k m) (h : EasyAxis j l F k)
    (hs : ∃ u : CVec ℝ, u.length = 1 ∧ axisEnergy F k l.mag < axisEnergy F k u) (hm : ∀ T, 0 ≤ T → Track j m T) :
    Tendsto (fun t => (m 0 t - M).length) atTop (𝓝 0) := by
  obtain ⟨M', hM', hlt, hrest⟩ := C143_single hk ho
  obtain rfl : M = M' := by
    by_contra hne
    exact absurd (hlt M hM hne) (not_lt.2 (hmin M' hM'))
  have key : Tendsto (fun t => toV (m 0 t)) atTop (𝓝 (toV M)) := by
    refine (isCompact_sphere (0 : V) 1).tendsto_nhds_of_unique_mapClusterPt ?_ ?_
    · filter_upwards [eventually_ge_atTop 0] with t ht
      simp [norm_toV, unit_at h hm ht]
    · intro x hx hcl
      have h1 : ((ofV x).cross (pull F k (ofV x))).normSq = 0 := by
        have hc := hcl.continuousAt_comp (cont_torque F k).continuousAt
        have : (fun v : V => ((ofV v).cross (pull F k (ofV v))).normSq) ∘ (fun t => toV (m 0 t)) =
            fun t => ((m 0 t).cross (pull F k (m 0 t))).normSq := by
          funext t; simp
        rw [this] at hc
        have hnb : (𝓝 (((ofV x).cross (pull F k (ofV x))).normSq) ⊓ 𝓝 (0 : ℝ)).NeBot := ClusterPt.mono hc (torque_dies h hm)
        exact eq_of_nhds_neBot hnb
      have h2 : axisEnergy F k (ofV x) ≤ axisEnergy F k l.mag := by
        have hcs : IsClosed {v : V | axisEnergy F k (ofV v) ≤ axisEnergy F k l.mag} := isClosed_le (cont_energy F k) continuous_const
        refine isClosed_iff_clusterPt.1 hcs x (ClusterPt.mono hcl (le_principal_iff.2 (mem_map.2 ?_)))
        filter_upwards [eventually_ge_atTop 0] with t ht
        simpa using energy_falls h hm ht
      obtain ⟨u, hu, hlu⟩ := hs
      rcases hrest (ofV x) (unit_of_normSq (unit_ofV hx)) (zero_of_normSq h1) with e | e
      · rw [← e, toV_ofV]
      · have := e u hu
        linarith
  have := (key.sub_const (toV M)).norm
  rw [sub_self, norm_zero] at this
  refine this.congr fun t => ?_
  rw [← toV_sub, norm_toV]

/-- C143: ... and so do the simulations, with every solver: outside the astroid the layer forgets where it came from. -/
theorem C143_outside (hk : 0 < k) (ho : OutsideAstroid F k) : ∃ M : CVec ℝ, M.length = 1 ∧
    (∀ m : CVec ℝ, m.length = 1 → m ≠ M → axisEnergy F k M < axisEnergy F k m) ∧
    ∀ (j : Junction ℝ) (l : Layer ℝ), EasyAxis j l F k →
      (∃ u : CVec ℝ, u.length = 1 ∧ axisEnergy F k l.mag < axisEnergy F k u) → ComesTo j M := by
  obtain ⟨M, hM, hlt, -⟩ := C143_single hk ho
  refine ⟨M, hM, hlt, fun j l h hs => ?_⟩
  obtain ⟨m, hm⟩ := track h
  have hz := C143_forgets hk ho hM (fun m hm => by
    rcases eq_or_ne m M with rfl | hne
    · exact le_rfl
    · exact (hlt m hm hne).le) h hs hm
  intro mode ε hε
  obtain ⟨S, hS⟩ := eventually_atTop.1 (hz.eventually_lt_const (half_pos hε))
  refine ⟨S, fun T => ?_⟩
  by_cases hT : 0 ≤ T
  swap
  · exact ⟨1, one_pos, fun n dt hdt _ _ hn => absurd (le_trans (by positivity) hn) hT⟩
  obtain ⟨C, r, hr, hn, -⟩ := C111_all j m T (hm T hT) mode
  refine ⟨min r (ε / (2 * (|C| + 1))), lt_min hr (by positivity), ?_⟩
  intro n dt hdt hdr hSn hnT we en k' hk' l' hl'
  have hlen : k'.layers.length = 1 := by
    rw [loop_length (fun l'' hl'' => by obtain rfl : l'' = l := by simpa [h.single] using hl''
                                        exact h.quiet) hk', h.single]; rfl
  obtain ⟨x, hx⟩ := List.length_eq_one_iff.1 hlen
  obtain rfl : l' = x := by simpa [hx] using hl'
  have h1 := hn n dt hdt (hdr.trans (min_le_left _ _)) hnT we en k' hk' 0 l' (by rw [hx]; rfl)
  have h2 := hS (n * dt) hSn
  rw [pow_one] at h1
  have h3 : C * dt ≤ ε / 2 := by
    have ha := hdr.trans (min_le_right _ _)
    rw [le_div_iff₀ (by positivity)] at ha
    nlinarith [le_abs_self C, abs_nonneg C]
  rw [← norm_toV, toV_sub] at h1 h2 ⊢
  refine (norm_sub_le_norm_sub_add_norm_sub _ (toV (m 0 (n * dt))) _).trans ?_
  linarith

/-! ## Inside -/

theorem abs_one_of {σ : ℝ} (h : σ ^ 2 = 1) : |σ| = 1 := by
  rw [← Real.sqrt_sq_eq_abs, h, Real.sqrt_one]

/-- helper: the least energy at the height `x` in the direction `σ` -/
noncomputable def rim (F : CVec ℝ) (k σ x : ℝ) : ℝ := -(acrossAxis F * √(1 - x ^ 2)) - σ * F.z * x - k / 2 * x ^ 2

theorem rim_le {σ x : ℝ} (hσ : σ ^ 2 = 1) {u : CVec ℝ} (hu : u.length = 1) (hx : σ * u.z = x) : rim F k σ x ≤ axisEnergy F k u := by
  have hu := sq_unit hu
  have hz : u.z = σ * x := by rw [← hx]; linear_combination -u.z * hσ
  have hq : √(1 - x ^ 2) = √(u.x ^ 2 + u.y ^ 2) := by
    congr 1
    simp only [CVec.normSq] at hu
    rw [hz] at hu
    linear_combination -hu + x ^ 2 * hσ
  have hc : F.x * u.x + F.y * u.y ≤ acrossAxis F * √(1 - x ^ 2) := by
    rw [hq, acrossAxis, ← Real.sqrt_mul (by positivity)]
    refine Real.le_sqrt_of_sq_le ?_
    nlinarith [sq_nonneg (F.x * u.y - F.y * u.x)]
  simp only [rim, axisEnergy, CVec.dot]
  rw [hz]
  have : k / 2 * (σ * x) ^ 2 = k / 2 * x ^ 2 := by rw [mul_pow, hσ, one_mul]
  rw [this]
  linarith

theorem rim_attained {σ x : ℝ} (hσ : σ ^ 2 = 1) (hx : x ^ 2 ≤ 1) : ∃ u : CVec ℝ, u.length = 1 ∧ σ * u.z = x ∧
    axisEnergy F k u = rim F k σ x := by
  have hq := Real.sq_sqrt (sub_nonneg.2 hx)
  have hz : σ * (σ * x) = x := by linear_combination x * hσ
  have hk2 : k / 2 * (σ * x) ^ 2 = k / 2 * x ^ 2 := by rw [mul_pow, hσ, one_mul]
  have ha : acrossAxis F ^ 2 = F.x ^ 2 + F.y ^ 2 := Real.sq_sqrt (by positivity)
  rcases eq_or_ne (acrossAxis F) 0 with e | e
  · rw [e] at ha
    have hx0 : F.x = 0 := by nlinarith [sq_nonneg F.x, sq_nonneg F.y]
    have hy0 : F.y = 0 := by nlinarith [sq_nonneg F.x, sq_nonneg F.y]
    refine ⟨⟨√(1 - x ^ 2), 0, σ * x⟩, unit_of_normSq ?_, hz, ?_⟩
    · simp only [CVec.normSq]; linear_combination hq + x ^ 2 * hσ
    · simp only [axisEnergy, rim, CVec.dot, hx0, hy0, e, hk2]; ring
  · refine ⟨⟨√(1 - x ^ 2) * (F.x / acrossAxis F), √(1 - x ^ 2) * (F.y / acrossAxis F), σ * x⟩, unit_of_normSq ?_, hz, ?_⟩
    · have e2 : (F.x / acrossAxis F) ^ 2 + (F.y / acrossAxis F) ^ 2 = 1 := by
        rw [div_pow, div_pow, ← add_div, ← ha, div_self (pow_ne_zero 2 e)]
      simp only [CVec.normSq]
      linear_combination (1 - x ^ 2) * e2 + ((F.x / acrossAxis F) ^ 2 + (F.y / acrossAxis F) ^ 2) * hq + x ^ 2 * hσ
    · simp only [axisEnergy, rim, CVec.dot, hk2]
      have e3 : F.x * (√(1 - x ^ 2) * (F.x / acrossAxis F)) + F.y * (√(1 - x ^ 2) * (F.y / acrossAxis F)) =
          acrossAxis F * √(1 - x ^ 2) := by
        field_simp
        linear_combination -√(1 - x ^ 2) * ha
      rw [e3]; ring

/-- helper: inside the astroid there is a height at which the energy falls towards both ends of the axis -/
theorem slope_inside (hk : 0 < k) (hi : InsideAstroid F k) : ∃ x, 0 ≤ x ∧ x < 1 ∧
    acrossAxis F * x / √(1 - x ^ 2) + |F.z| - k * x < 0 := by
  have ha : 0 ≤ acrossAxis F := Real.sqrt_nonneg _
  have hb : 0 ≤ |F.z| := abs_nonneg _
  unfold InsideAstroid at hi
  generalize acrossAxis F = a at *
  generalize |F.z| = b at *
  rcases eq_or_lt_of_le ha with rfl | ha
  · rw [Real.zero_rpow (by norm_num), zero_add, Real.rpow_lt_rpow_iff hb hk.le (by norm_num)] at hi
    have : b / k < 1 := (div_lt_one hk).2 hi
    have h0 : 0 ≤ b / k := by positivity
    refine ⟨(b / k + 1) / 2, by positivity, by linarith, ?_⟩
    have e : k * ((b / k + 1) / 2) = (b + k) / 2 := by field_simp
    rw [e, zero_mul, zero_div]; linarith
  · set s := (a / k) ^ (1 / 3 : ℝ) with hs
    have hak : 0 < a / k := by positivity
    have hs0 : 0 < s := Real.rpow_pos_of_pos hak _
    have hs3 : s ^ 3 = a / k := by rw [hs, ← Real.rpow_natCast, ← Real.rpow_mul hak.le]; norm_num
    have hs2 : s ^ 2 = (a / k) ^ (2 / 3 : ℝ) := by rw [hs, ← Real.rpow_natCast, ← Real.rpow_mul hak.le]; norm_num
    have hkp : 0 < k ^ (2 / 3 : ℝ) := Real.rpow_pos_of_pos hk _
    rw [Real.div_rpow ha.le hk.le, eq_div_iff hkp.ne'] at hs2
    have hb2 : 0 ≤ b ^ (2 / 3 : ℝ) := Real.rpow_nonneg hb _
    have hlt : b ^ (2 / 3 : ℝ) < k ^ (2 / 3 : ℝ) * (1 - s ^ 2) := by rw [← hs2] at hi; linarith
    have h1 : 0 < 1 - s ^ 2 := by
      by_contra hc
      nlinarith
    set x := √(1 - s ^ 2) with hx
    have hx0 : 0 < x := Real.sqrt_pos.2 h1
    have hx2 : x ^ 2 = 1 - s ^ 2 := Real.sq_sqrt h1.le
    have hx3 : (k * x ^ 3) ^ (2 / 3 : ℝ) = k ^ (2 / 3 : ℝ) * (1 - s ^ 2) := by
      rw [Real.mul_rpow hk.le (by positivity), ← hx2, ← Real.rpow_natCast x 3, ← Real.rpow_mul hx0.le]
      norm_num
    rw [← hx3, Real.rpow_lt_rpow_iff hb (by positivity) (by norm_num)] at hlt
    refine ⟨x, hx0.le, by nlinarith, ?_⟩
    have e : √(1 - x ^ 2) = s := by rw [hx2, sub_sub_cancel, Real.sqrt_sq hs0.le]
    have ea : a = k * s ^ 3 := by rw [hs3]; field_simp
    rw [e, ea, show k * s ^ 3 * x / s = k * s ^ 2 * x by field_simp]
    have : s ^ 2 = 1 - x ^ 2 := by linarith
    rw [this]
    nlinarith

/-- helper: from there on the energy falls -/
theorem rim_falls {σ x : ℝ} (hσ : σ ^ 2 = 1) (h0 : 0 ≤ x) (h1 : x < 1)
    (hs : acrossAxis F * x / √(1 - x ^ 2) + |F.z| - k * x < 0) : ∃ y, x < y ∧ y < 1 ∧ rim F k σ y < rim F k σ x := by
  have hp : 0 < 1 - x ^ 2 := by nlinarith
  have hd : HasDerivAt (rim F k σ) (acrossAxis F * x / √(1 - x ^ 2) - σ * F.z - k * x) x := by
    have d0 : HasDerivAt (fun y : ℝ => 1 - y ^ 2) (-(2 * x)) x := by
      simpa using (hasDerivAt_pow 2 x).const_sub 1
    have d1 := (d0.sqrt hp.ne').const_mul (acrossAxis F)
    have d2 : HasDerivAt (fun y : ℝ => σ * F.z * y) (σ * F.z) x := by simpa using (hasDerivAt_id x).const_mul (σ * F.z)
    have d3 : HasDerivAt (fun y : ℝ => k / 2 * y ^ 2) (k / 2 * (2 * x)) x := by simpa using (hasDerivAt_pow 2 x).const_mul (k / 2)
    refine ((d1.neg.sub d2).sub d3).congr_deriv ?_
    have := (Real.sqrt_pos.2 hp).ne'
    field_simp
  have hneg : acrossAxis F * x / √(1 - x ^ 2) - σ * F.z - k * x < 0 := by
    have : -(σ * F.z) ≤ |F.z| := by
      have e : |σ * F.z| = |F.z| := by
        rw [abs_mul, (abs_one_of hσ), one_mul]
      rw [← e]
      exact neg_le_abs _
    linarith
  have hs := (hasDerivAt_iff_tendsto_slope.1 hd).eventually (gt_mem_nhds hneg)
  have hs := hs.filter_mono (nhdsWithin_mono x fun y (hy : x < y) => ne_of_gt hy : nhdsWithin x (Set.Ioi x) ≤ nhdsWithin x {x}ᶜ)
  have hlt : ∀ᶠ y in nhdsWithin x (Set.Ioi x), y < 1 := (gt_mem_nhds h1).filter_mono nhdsWithin_le_nhds
  obtain ⟨y, ⟨hy1, hy2⟩, hy3⟩ := ((hs.and self_mem_nhdsWithin).and hlt).exists
  have hy2 : x < y := hy2
  refine ⟨y, hy2, hy3, ?_⟩
  rw [slope_def_field, div_lt_iff₀ (sub_pos.2 hy2), zero_mul, sub_neg] at hy1
  exact hy1

/-- C143, for the equation of motion: a layer that starts in an energy well stays in it. -/
theorem C143_trapped {σ x : ℝ} (h : EasyAxis j l F k) (hm : ∀ T, 0 ≤ T → Track j m T) (hw : InWell F k σ x l.mag) {t : ℝ}
    (ht : 0 ≤ t) : x < σ * (m 0 t).z := by
  by_contra hcon
  rw [not_lt] at hcon
  obtain ⟨lo, hi, hlo, hhi, hmo⟩ := (hm t ht).solves
  have hc : ContinuousOn (fun s => σ * (m 0 s).z) (Set.Icc 0 t) := fun s hs =>
    ((hmo 0 l (get h) s ⟨by linarith [hs.1], by linarith [hs.2]⟩).2.2.continuousAt.const_mul σ).continuousWithinAt
  have := intermediate_value_Icc' ht hc
  have hmem : x ∈ Set.Icc (σ * (m 0 t).z) (σ * (m 0 0).z) := ⟨hcon, by rw [start h hm]; exact hw.1.le⟩
  obtain ⟨s, hs, hsx⟩ := this hmem
  have h1 := hw.2 (m 0 s) (unit_at h hm hs.1) hsx
  have h2 := energy_falls h hm hs.1
  linarith

/-- C143: ... and so do simulations, with every solver. -/
theorem C143_kept {σ x : ℝ} (hσ : σ ^ 2 = 1) (h : EasyAxis j l F k) (hw : InWell F k σ x l.mag) : KeepsAbove j σ x := by
  obtain ⟨m, hm⟩ := track h
  intro mode T
  by_cases hT : 0 ≤ T
  swap
  · exact ⟨1, one_pos, fun n dt hdt _ hn => absurd (le_trans (by positivity) hn) hT⟩
  obtain ⟨lo, hi, hlo, hhi, hmo⟩ := (hm T hT).solves
  have hc : ContinuousOn (fun s => σ * (m 0 s).z) (Set.Icc 0 T) := fun s hs =>
    ((hmo 0 l (get h) s ⟨by linarith [hs.1], by linarith [hs.2]⟩).2.2.continuousAt.const_mul σ).continuousWithinAt
  obtain ⟨s0, hs0, hmin⟩ := isCompact_Icc.exists_isMinOn ⟨0, le_rfl, hT⟩ hc
  have hδ : 0 < σ * (m 0 s0).z - x := sub_pos.2 (C143_trapped h hm hw hs0.1)
  set δ := σ * (m 0 s0).z - x with hδd
  obtain ⟨C, r, hr, hn, -⟩ := C111_all j m T (hm T hT) mode
  refine ⟨min r (δ / (2 * (|C| + 1))), lt_min hr (by positivity), ?_⟩
  intro n dt hdt hdr hnT we en k' hk' l' hl'
  have hlen : k'.layers.length = 1 := by
    rw [loop_length (fun l'' hl'' => by obtain rfl : l'' = l := by simpa [h.single] using hl''
                                        exact h.quiet) hk', h.single]; rfl
  obtain ⟨y, hy⟩ := List.length_eq_one_iff.1 hlen
  obtain rfl : l' = y := by simpa [hy] using hl'
  have h1 := hn n dt hdt (hdr.trans (min_le_left _ _)) hnT we en k' hk' 0 l' (by rw [hy]; rfl)
  rw [pow_one] at h1
  have h3 : C * dt ≤ δ / 2 := by
    have ha := hdr.trans (min_le_right _ _)
    rw [le_div_iff₀ (by positivity)] at ha
    nlinarith [le_abs_self C, abs_nonneg C]
  have h4 := (length_comp (h1.trans h3)).2.2
  have h5 : σ * (m 0 s0).z ≤ σ * (m 0 (n * dt)).z := hmin (show (n * dt : ℝ) ∈ Set.Icc 0 T from ⟨by positivity, hnT⟩)
  rw [CVec.sub_z] at h4
  have h6 : |σ * (l'.mag.z - (m 0 (n * dt)).z)| ≤ δ / 2 := by rwa [abs_mul, abs_one_of hσ, one_mul]
  have h7 := (abs_le.1 h6).1
  nlinarith

/-- C143: inside the astroid the layer remembers: around both ends of the easy axis there is an energy well, reaching no further than
the equator, and simulations that start in it stay in it. -/
theorem C143_inside (hk : 0 < k) (hi : InsideAstroid F k) : ∃ x, 0 ≤ x ∧ x < 1 ∧ ∀ σ : ℝ, σ = 1 ∨ σ = -1 →
    (∃ u : CVec ℝ, u.length = 1 ∧ InWell F k σ x u) ∧
    ∀ (j : Junction ℝ) (l : Layer ℝ), EasyAxis j l F k → InWell F k σ x l.mag → KeepsAbove j σ x := by
  obtain ⟨x, h0, h1, hs⟩ := slope_inside hk hi
  refine ⟨x, h0, h1, fun σ hσ => ?_⟩
  have hσ : σ ^ 2 = 1 := by rcases hσ with rfl | rfl <;> norm_num
  refine ⟨?_, fun j l h hw => C143_kept hσ h hw⟩
  obtain ⟨y, hy0, hy1, hlt⟩ := rim_falls hσ h0 h1 hs
  obtain ⟨u, hu, huz, he⟩ := rim_attained (F := F) (k := k) hσ (x := y) (by nlinarith)
  refine ⟨u, hu, by rw [huz]; exact hy0, fun v hv hvx => ?_⟩
  rw [he]
  exact hlt.trans_le (rim_le hσ hv hvx)

/-- C143: a field at 45 degrees to the axis lies inside the astroid up to half the anisotropy field and outside from there on. -/
theorem C143_half (hk : 0 < k) (hF : F.x ^ 2 + F.y ^ 2 = F.z ^ 2) :
    (InsideAstroid F k ↔ F.length < k / 2) ∧ (OutsideAstroid F k ↔ k / 2 < F.length) := by
  have ha : acrossAxis F = |F.z| := by rw [acrossAxis, hF, Real.sqrt_sq_eq_abs]
  have hl : F.length ^ 2 = 2 * |F.z| ^ 2 := by
    rw [sq_length, sq_abs]; simp only [CVec.normSq]; linarith
  have hl0 := length_nonneg F
  have hb : 0 ≤ |F.z| := abs_nonneg _
  unfold InsideAstroid OutsideAstroid
  rw [ha]
  generalize |F.z| = b at *
  have e : b ^ (2 / 3 : ℝ) + b ^ (2 / 3 : ℝ) = (2 * F.length) ^ (2 / 3 : ℝ) := by
    have e1 : (2 * F.length) ^ (2 / 3 : ℝ) = ((2 * F.length) ^ 2) ^ (1 / 3 : ℝ) := by
      rw [← Real.rpow_natCast, ← Real.rpow_mul (by positivity)]; norm_num
    have e2 : b ^ (2 / 3 : ℝ) = (b ^ 2) ^ (1 / 3 : ℝ) := by
      rw [← Real.rpow_natCast, ← Real.rpow_mul hb]; norm_num
    have e3 : (8 : ℝ) ^ (1 / 3 : ℝ) = 2 := by
      rw [show (8 : ℝ) = 2 ^ (3 : ℝ) by norm_num, ← Real.rpow_mul (by norm_num)]; norm_num
    rw [e1, mul_pow, hl, show (2 : ℝ) ^ 2 * (2 * b ^ 2) = 8 * b ^ 2 by ring, Real.mul_rpow (by norm_num) (by positivity), e3, e2]
    ring
  rw [e, Real.rpow_lt_rpow_iff (by positivity) hk.le (by norm_num), Real.rpow_lt_rpow_iff hk.le (by positivity) (by norm_num)]
  constructor <;> constructor <;> intro h <;> linarith

/-! ## Cases -/

noncomputable def axisL (F u : CVec ℝ) : Layer ℝ :=
  { plainOf Layer.demo with
    damping := 1 / 10, anis := ⟨0, 0, 1⟩, anisotropyDriver := .constantDriver (1 / 2), externalFieldDriver := .ofVec F, mag := u }

noncomputable def axisJ (F u : CVec ℝ) : Junction ℝ := { demoJ with layers := [axisL F u] }

/-- A layer with the anisotropy field 1 in any constant field. -/
theorem axis_easy {F u : CVec ℝ} (hu : u.length = 1) : EasyAxis (axisJ F u) (axisL F u) F 1 := by
  have zero : ∀ t, (AxialDriver.null : AxialDriver ℝ).value t = ⟨0, 0, 0⟩ := by
    intro t; simp [AxialDriver.value, AxialDriver.null, ScalarDriver.value, ScalarDriver.null]
  refine ⟨rfl, ?_, by norm_num [axisL], ?_, rfl, ⟨0, 0, ?_, ?_⟩, hu, ?_, ?_⟩
  · refine ⟨rfl, rfl, by norm_num [axisL], by norm_num [axisL, plainOf, Layer.demo], ?_, still_constant rfl, still_constant rfl,
      still_constant rfl, still_constant rfl, still_constant rfl, still_axes ⟨rfl, rfl, rfl⟩, still_axes ⟨rfl, rfl, rfl⟩,
      still_axes ⟨rfl, rfl, rfl⟩, still_axes ⟨rfl, rfl, rfl⟩, zero, zero⟩
    intro a b
    rw [show (axisL F u).demagTensor = Tensor.zero from rfl, tensor_none, tensor_none]
    simp [CVec.dot]
  · rw [staticField, show (axisL F u).externalFieldDriver = .ofVec F from rfl, show (axisL F u).HoeDriver = .null from rfl,
      show (axisL F u).HdmiDriver = .null from rfl, show (axisL F u).HreservedDriver = .null from rfl, zero]
    apply CVec.ext <;> simp [AxialDriver.value, AxialDriver.ofVec, ScalarDriver.value, ScalarDriver.constantDriver]
  · simp [axisL, plainOf, Layer.demo, Tensor.zero, CVec.zero]
  · norm_num [stiffness, axisL, plainOf, Layer.demo, ScalarDriver.value, ScalarDriver.constantDriver]
  · rw [quiet_iff]
    exact ⟨rfl, by simp [axisL, plainOf, Layer.demo]⟩
  · have ax : SmoothAxes (AxialDriver.null : AxialDriver ℝ) := ⟨.inl rfl, .inl rfl, .inl rfl⟩
    exact ⟨.inl rfl, .inl rfl, .inl rfl, .inl rfl, .inl rfl, .inl rfl, .inl rfl, .inl rfl, ax, ax, ax,
      ⟨.inl rfl, .inl rfl, .inl rfl⟩, ax, ax⟩

/-- In a field of 0.4 across and against the axis, a little over half the anisotropy field, layers from both ends of the axis end in
the same state, -/
example : ∃ M : CVec ℝ, ComesTo (axisJ ⟨2 / 5, 0, -(2 / 5)⟩ ⟨0, 0, 1⟩) M ∧ ComesTo (axisJ ⟨2 / 5, 0, -(2 / 5)⟩ ⟨0, 0, -1⟩) M := by
  have ho : OutsideAstroid ⟨2 / 5, 0, -(2 / 5)⟩ 1 := by
    rw [(C143_half one_pos (by norm_num)).2, CVec.length_eq]
    exact Real.lt_sqrt_of_sq_lt (by norm_num [CVec.normSq])
  obtain ⟨M, -, -, h⟩ := C143_outside one_pos ho
  have hu : (⟨-1, 0, 0⟩ : CVec ℝ).length = 1 := by simp [CVec.length_eq, CVec.normSq]
  exact ⟨M, h _ _ (axis_easy (by simp [CVec.length_eq, CVec.normSq])) ⟨_, hu, by norm_num [axisEnergy, axisL, CVec.dot]⟩,
    h _ _ (axis_easy (by simp [CVec.length_eq, CVec.normSq])) ⟨_, hu, by norm_num [axisEnergy, axisL, CVec.dot]⟩⟩

/-- and in one of 0.3, a little under half of it, there are layers that stay above and others that stay below the equator. -/
example : ∃ (u v : CVec ℝ) (x : ℝ), 0 ≤ x ∧ KeepsAbove (axisJ ⟨3 / 10, 0, -(3 / 10)⟩ u) 1 x ∧
    KeepsAbove (axisJ ⟨3 / 10, 0, -(3 / 10)⟩ v) (-1) x := by
  have hi : InsideAstroid ⟨3 / 10, 0, -(3 / 10)⟩ 1 := by
    rw [(C143_half one_pos (by norm_num)).1, CVec.length_eq, Real.sqrt_lt' (by norm_num)]
    norm_num [CVec.normSq]
  obtain ⟨x, h0, -, h⟩ := C143_inside one_pos hi
  obtain ⟨⟨u, hu, hw⟩, hk⟩ := h 1 (.inl rfl)
  obtain ⟨⟨v, hv, hw'⟩, hk'⟩ := h (-1) (.inr rfl)
  exact ⟨u, v, x, h0, hk _ _ (axis_easy hu) hw, hk' _ _ (axis_easy hv) hw'⟩

end Astroid
