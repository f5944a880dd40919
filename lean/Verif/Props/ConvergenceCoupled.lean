import Verif.Props.Convergence

/-!
C111: with several coupled layers the Runge-Kutta solver is only of first order, because every layer is stepped in the
field of neighbours that stand still during the step.
-/

set_option linter.unusedSectionVars false
set_option linter.unusedSimpArgs false

namespace Junction
open Spec Order Layer

/-! ### Two undamped layers coupled by exchange -/

/-- the lower layer, along x -/
noncomputable def exA : Layer ℝ :=
  { plainOf Layer.demo with
    damping := 0, anisotropyDriver := .null, externalFieldDriver := .null, mag := ⟨1, 0, 0⟩,
    IECDriverTop := .constantDriver (1 / 220880) }

/-- the upper layer, along y -/
noncomputable def exB : Layer ℝ :=
  { plainOf Layer.demo with
    damping := 0, anisotropyDriver := .null, externalFieldDriver := .null, mag := ⟨0, 1, 0⟩,
    IECDriverBottom := .constantDriver (1 / 220880) }

noncomputable def exJ : Junction ℝ := { demoJ with layers := [exA, exB] }

/-- helper -/
theorem exA_motion (t : ℝ) (m b a : CVec ℝ) : motion exA t m b a = a.cross m := by
  have hf : field exA t m b a = ⟨a.x / 220880, a.y / 220880, a.z / 220880⟩ := by
    ext <;> simp [field, heffSpec, exA, plainOf, Layer.demo, AxialDriver.value, AxialDriver.null, ScalarDriver.value,
      ScalarDriver.null, ScalarDriver.constantDriver, Tensor.zero, CVec.zero, anisField, exchangeField, idmiField, tensorField,
      smul] <;> ring
  unfold motion
  rw [hf]
  have h1 : exA.includeSTT = false := rfl
  have h2 : exA.includeSOT = false := rfl
  have h3 : exA.damping = 0 := rfl
  rw [h3]
  ext <;> simp [spinTorque, h1, h2, smul] <;> ring

/-- helper -/
theorem exB_motion (t : ℝ) (m b a : CVec ℝ) : motion exB t m b a = b.cross m := by
  have hf : field exB t m b a = ⟨b.x / 220880, b.y / 220880, b.z / 220880⟩ := by
    ext <;> simp [field, heffSpec, exB, plainOf, Layer.demo, AxialDriver.value, AxialDriver.null, ScalarDriver.value,
      ScalarDriver.null, ScalarDriver.constantDriver, Tensor.zero, CVec.zero, anisField, exchangeField, idmiField, tensorField,
      smul] <;> ring
  unfold motion
  rw [hf]
  have h1 : exB.includeSTT = false := rfl
  have h2 : exB.includeSOT = false := rfl
  have h3 : exB.damping = 0 := rfl
  rw [h3]
  ext <;> simp [spinTorque, h1, h2, smul] <;> ring

/-- helper: the junction meets the hypotheses of `C111_exists` -/
theorem ex_track (T : ℝ) (hT : 0 ≤ T) : ∃ m, Track exJ m T := by
  have mem : ∀ l ∈ exJ.layers, l = exA ∨ l = exB := by intro l hl; simpa [exJ] using hl
  refine C111_exists exJ T hT ?_ ?_ ?_ ?_ ?_
  · intro l hl
    rcases mem l hl with rfl | rfl <;> simp [exA, exB, CVec.length_eq, CVec.normSq]
  · intro l hl
    rcases mem l hl with rfl | rfl <;> simp [exA, exB, plainOf, Layer.demo]
  · intro l hl
    rw [quiet_iff]
    rcases mem l hl with rfl | rfl <;> exact ⟨rfl, by simp [exA, exB, plainOf, Layer.demo]⟩
  · intro l hl
    have ax : SmoothAxes (AxialDriver.null : AxialDriver ℝ) := ⟨.inl rfl, .inl rfl, .inl rfl⟩
    rcases mem l hl with rfl | rfl <;>
    exact ⟨.inl rfl, .inl rfl, .inl rfl, .inl rfl, .inl rfl, .inl rfl, .inl rfl, .inl rfl, ax, ax, ax, ax, ax, ax⟩
  · intro l hl
    refine C111_poleless l fun h => ?_
    rcases mem l hl with rfl | rfl <;> exact absurd h (by simp [exA, exB, plainOf])

/-- helper: the angle between the two magnetisations does not change -/
theorem ex_angle {m : Nat → ℝ → CVec ℝ} {T : ℝ} (h : Track exJ m T) (t : ℝ) (ht : t ∈ Set.Icc 0 T) :
    (m 0 t).dot (m 1 t) = 0 := by
  obtain ⟨lo, hi, hlo, hhi, hm⟩ := h.solves
  have hd : ∀ s ∈ Set.Ioo lo hi, HasDerivWithinAt (fun s => (m 0 s).dot (m 1 s)) 0 (Set.Ioo lo hi) s := by
    intro s hs
    obtain ⟨a1, a2, a3⟩ := hm 0 exA rfl s hs
    obtain ⟨b1, b2, b3⟩ := hm 1 exB rfl s hs
    have q := ((a1.mul b1).add (a2.mul b2)).add (a3.mul b3)
    refine HasDerivAt.hasDerivWithinAt (q.congr_deriv ?_)
    have e1 : upper exJ.layers.length m 0 s = m 1 s := rfl
    have e2 : lower m 1 s = m 0 s := rfl
    rw [exA_motion, exB_motion, e1, e2]
    simp only [CVec.cross_x, CVec.cross_y, CVec.cross_z]
    ring
  have h0 : (0 : ℝ) ∈ Set.Ioo lo hi := ⟨hlo, by linarith [ht.1, ht.2]⟩
  have := (convex_Ioo lo hi).norm_image_sub_le_of_norm_hasDerivWithin_le (C := 0) hd (by simp) h0
    (⟨by linarith [ht.1], by linarith [ht.2]⟩ : t ∈ Set.Ioo lo hi)
  rw [zero_mul, norm_le_zero_iff, sub_eq_zero] at this
  have s0 : m 0 0 = ⟨1, 0, 0⟩ := h.start 0 exA rfl
  have s1 : m 1 0 = ⟨0, 1, 0⟩ := h.start 1 exB rfl
  rw [this, s0, s1]
  simp [CVec.dot]

/-! ### The steps of the solver -/

/-- a Runge-Kutta step in the field of a fixed unit vector -/
noncomputable def turned (h : ℝ) (u v : CVec ℝ) : CVec ℝ :=
  v * (1 - (h ^ 2 / 2 - h ^ 4 / 24)) + u * ((h ^ 2 / 2 - h ^ 4 / 24) * u.dot v) + u.cross v * (h - h ^ 3 / 6)

/-- helper -/
theorem rk4U_turned (u v : CVec ℝ) (hu : u.normSq = 1) (t h : ℝ) :
    Layer.rk4U (fun _ m => u.cross m) t h v = turned h u v := by
  have hu' : u.x ^ 2 + u.y ^ 2 + u.z ^ 2 = 1 := hu
  unfold Layer.rk4U Layer.rk4Combine turned
  ext
  · simp only [Scalar.ofSci_real_true, CVec.add_x, CVec.add_y, CVec.add_z, CVec.mulr_x, CVec.mulr_y, CVec.mulr_z,
      CVec.cross_x, CVec.cross_y, CVec.cross_z, CVec.dot]
    norm_num
    linear_combination (-(h ^ 2 / 2) * v.x - h ^ 3 / 6 * (u.y * v.z - u.z * v.y) - h ^ 4 / 24 * u.x *
      (u.x * v.x + u.y * v.y + u.z * v.z) + h ^ 4 / 24 * (u.x ^ 2 + u.y ^ 2 + u.z ^ 2 + 1) * v.x) * hu'
  · simp only [Scalar.ofSci_real_true, CVec.add_x, CVec.add_y, CVec.add_z, CVec.mulr_x, CVec.mulr_y, CVec.mulr_z,
      CVec.cross_x, CVec.cross_y, CVec.cross_z, CVec.dot]
    norm_num
    linear_combination (-(h ^ 2 / 2) * v.y - h ^ 3 / 6 * (u.z * v.x - u.x * v.z) - h ^ 4 / 24 * u.y *
      (u.x * v.x + u.y * v.y + u.z * v.z) + h ^ 4 / 24 * (u.x ^ 2 + u.y ^ 2 + u.z ^ 2 + 1) * v.y) * hu'
  · simp only [Scalar.ofSci_real_true, CVec.add_x, CVec.add_y, CVec.add_z, CVec.mulr_x, CVec.mulr_y, CVec.mulr_z,
      CVec.cross_x, CVec.cross_y, CVec.cross_z, CVec.dot]
    norm_num
    linear_combination (-(h ^ 2 / 2) * v.z - h ^ 3 / 6 * (u.x * v.y - u.y * v.x) - h ^ 4 / 24 * u.z *
      (u.x * v.x + u.y * v.y + u.z * v.z) + h ^ 4 / 24 * (u.x ^ 2 + u.y ^ 2 + u.z ^ 2 + 1) * v.z) * hu'

/-- squared length after a step, as a function of the cosine of the angle -/
noncomputable def stepNorm (h d : ℝ) : ℝ := d ^ 2 + ((1 - (h ^ 2 / 2 - h ^ 4 / 24)) ^ 2 + (h - h ^ 3 / 6) ^ 2) * (1 - d ^ 2)

/-- scalar product after a step -/
noncomputable def stepDot (h d : ℝ) : ℝ := d - (1 - d ^ 2) * ((h ^ 2 / 2 - h ^ 4 / 24) ^ 2 * d + (h - h ^ 3 / 6) ^ 2)

/-- helper -/
theorem turned_norm (u v : CVec ℝ) (hu : u.normSq = 1) (hv : v.normSq = 1) (h : ℝ) :
    (turned h u v).normSq = stepNorm h (u.dot v) := by
  have hu' : u.x ^ 2 + u.y ^ 2 + u.z ^ 2 = 1 := hu
  have hv' : v.x ^ 2 + v.y ^ 2 + v.z ^ 2 = 1 := hv
  set c := h ^ 2 / 2 - h ^ 4 / 24 with hc
  set s := h - h ^ 3 / 6 with hs
  have e : (turned h u v).normSq = (1 - c) ^ 2 * v.normSq + (c * u.dot v) ^ 2 * u.normSq + 2 * (1 - c) * (c * u.dot v) * u.dot v +
      s ^ 2 * (u.normSq * v.normSq - u.dot v ^ 2) := by
    simp only [turned, CVec.normSq, CVec.dot, CVec.add_x, CVec.add_y, CVec.add_z, CVec.mulr_x, CVec.mulr_y, CVec.mulr_z,
      CVec.cross_x, CVec.cross_y, CVec.cross_z, ← hc, ← hs]
    ring
  rw [e, hu, hv]
  unfold stepNorm
  rw [← hc, ← hs]
  ring

/-- helper -/
theorem turned_dot (u v : CVec ℝ) (hu : u.normSq = 1) (hv : v.normSq = 1) (h : ℝ) :
    (turned h u v).dot (turned h v u) = stepDot h (u.dot v) := by
  set c := h ^ 2 / 2 - h ^ 4 / 24 with hc
  set s := h - h ^ 3 / 6 with hs
  have e : (turned h u v).dot (turned h v u) = (1 - c) ^ 2 * u.dot v + (1 - c) * (c * u.dot v) * (v.normSq + u.normSq) +
      (c * u.dot v) ^ 2 * u.dot v - s ^ 2 * (u.normSq * v.normSq - u.dot v ^ 2) := by
    simp only [turned, CVec.normSq, CVec.dot, CVec.add_x, CVec.add_y, CVec.add_z, CVec.mulr_x, CVec.mulr_y, CVec.mulr_z,
      CVec.cross_x, CVec.cross_y, CVec.cross_z, ← hc, ← hs]
    ring
  rw [e, hu, hv]
  unfold stepDot
  rw [← hc, ← hs]
  ring

/-- helper -/
theorem drift_norm {q d : ℝ} (hp : 0 < q) (hh : q ≤ 1 / 4) (hd2 : d ^ 2 ≤ 1 / 4) :
    1 - (q ^ 3 / 72 - q ^ 4 / 576) * (1 - d ^ 2) ≤ 1 ∧ 1 - q ^ 2 / 72 ≤ 1 - (q ^ 3 / 72 - q ^ 4 / 576) * (1 - d ^ 2) := by
  have h3 : 0 < q ^ 3 := by positivity
  have e4 : q ^ 4 = q ^ 3 * q := by ring
  have b0 : 0 ≤ q ^ 3 / 72 - q ^ 4 / 576 := by
    have : q ^ 3 * q ≤ q ^ 3 * (1 / 4) := mul_le_mul_of_nonneg_left hh h3.le
    linarith
  have b1 : q ^ 3 / 72 - q ^ 4 / 576 ≤ q ^ 2 / 72 := by
    have h4 : 0 ≤ q ^ 4 := by positivity
    have : q ^ 2 * q ≤ q ^ 2 * (1 / 4) := mul_le_mul_of_nonneg_left hh (by positivity)
    have : q ^ 3 = q ^ 2 * q := by ring
    have : 0 < q ^ 2 := by positivity
    linarith
  generalize q ^ 3 / 72 - q ^ 4 / 576 = w at *
  have hd : 0 ≤ d ^ 2 := sq_nonneg d
  constructor
  · have : 0 ≤ w * (1 - d ^ 2) := mul_nonneg b0 (by linarith)
    linarith
  · have : w * (1 - d ^ 2) ≤ w * 1 := mul_le_mul_of_nonneg_left (by linarith) b0
    linarith

/-- helper -/
theorem drift_dot {q d A B : ℝ} (hp : 0 < q) (d0 : -(1 / 2) ≤ d) (d1 : d ≤ 0) (hd2 : d ^ 2 ≤ 1 / 4) (a1 : B ≤ q)
    (a2 : 9 / 10 * q ≤ B) (a3 : A ≤ q / 16) (a4 : 0 ≤ A) :
    d - (1 - d ^ 2) * (A * d + B) ≤ d - q / 4 ∧ d - q ≤ d - (1 - d ^ 2) * (A * d + B) := by
  have x0 : -(q / 32) ≤ A * d := by
    have : A * -(1 / 2) ≤ A * d := mul_le_mul_of_nonneg_left d0 a4
    linarith
  have x1 : A * d ≤ 0 := mul_nonpos_of_nonneg_of_nonpos a4 d1
  have hd : 0 ≤ d ^ 2 := sq_nonneg d
  generalize A * d = w at *
  constructor
  · have : (3 / 4) * (w + B) ≤ (1 - d ^ 2) * (w + B) := mul_le_mul_of_nonneg_right (by linarith) (by linarith)
    linarith
  · have : (1 - d ^ 2) * (w + B) ≤ 1 * (w + B) := mul_le_mul_of_nonneg_right (by linarith) (by linarith)
    linarith

/-- helper -/
theorem drift_coeff {q : ℝ} (hp : 0 < q) (hh : q ≤ 1 / 4) : q * (1 - q / 6) ^ 2 ≤ q ∧ 9 / 10 * q ≤ q * (1 - q / 6) ^ 2 ∧
    (q / 2 - q ^ 2 / 24) ^ 2 ≤ q / 16 := by
  refine ⟨?_, ?_, ?_⟩
  · have : (1 - q / 6) ^ 2 ≤ 1 := by nlinarith
    nlinarith
  · have : 9 / 10 ≤ (1 - q / 6) ^ 2 := by nlinarith
    nlinarith
  · have x0 : 0 ≤ q / 2 - q ^ 2 / 24 := by nlinarith
    have x1 : q / 2 - q ^ 2 / 24 ≤ q / 2 := by nlinarith [sq_nonneg q]
    have : (q / 2 - q ^ 2 / 24) ^ 2 ≤ (q / 2) ^ 2 := pow_le_pow_left₀ x0 x1 2
    nlinarith

/-- helper: the angle opens by a step -/
theorem step_drift {h d : ℝ} (h0 : 0 < h) (h1 : h ≤ 1 / 2) (d0 : -(1 / 2) ≤ d) (d1 : d ≤ 0) :
    0 < stepNorm h d ∧ stepDot h d / stepNorm h d ≤ d - h ^ 2 / 4 ∧ d - 2 * h ^ 2 ≤ stepDot h d / stepNorm h d := by
  have hh : h ^ 2 ≤ 1 / 4 := by nlinarith
  have hp : 0 < h ^ 2 := by positivity
  have hd2 : d ^ 2 ≤ 1 / 4 := by nlinarith
  have eN : stepNorm h d = 1 - ((h ^ 2) ^ 3 / 72 - (h ^ 2) ^ 4 / 576) * (1 - d ^ 2) := by
    unfold stepNorm; ring
  have eD : stepDot h d = d - (1 - d ^ 2) * ((h ^ 2 / 2 - (h ^ 2) ^ 2 / 24) ^ 2 * d + h ^ 2 * (1 - h ^ 2 / 6) ^ 2) := by
    unfold stepDot; ring
  generalize h ^ 2 = q at *
  obtain ⟨N1, N2⟩ := drift_norm hp hh hd2
  obtain ⟨a1, a2, a3⟩ := drift_coeff hp hh
  obtain ⟨D1, D2⟩ := drift_dot hp d0 d1 hd2 a1 a2 a3 (sq_nonneg _)
  rw [← eN] at N1 N2
  rw [← eD] at D1 D2
  have q2 : q ^ 2 / 72 ≤ q := by nlinarith
  have N0 : 0 < stepNorm h d := by linarith
  generalize stepNorm h d = N at *
  generalize stepDot h d = D at *
  refine ⟨N0, ?_, ?_⟩
  · rw [div_le_iff₀ N0]
    have : (d - q / 4) * 1 ≤ (d - q / 4) * N := mul_le_mul_of_nonpos_left N1 (by linarith)
    linarith
  · rw [le_div_iff₀ N0]
    have y1 : (d - 2 * q) * N ≤ (d - 2 * q) * (1 - q ^ 2 / 72) := mul_le_mul_of_nonpos_left N2 (by linarith)
    have y2 : (2 * q - d) * (q ^ 2 / 72) ≤ 1 * (q ^ 2 / 72) := mul_le_mul_of_nonneg_right (by linarith) (by positivity)
    linarith

/-- helper -/
theorem dot_normalize {a b : CVec ℝ} {N : ℝ} (hN : 0 < N) (ha : a.normSq = N) (hb : b.normSq = N) :
    a.normalize.dot b.normalize = a.dot b / N ∧ a.normalize.normSq = 1 ∧ b.normalize.normSq = 1 := by
  have hla : a.length = Real.sqrt N := by rw [CVec.length_eq, ha]
  have hlb : b.length = Real.sqrt N := by rw [CVec.length_eq, hb]
  have hs : Real.sqrt N ≠ 0 := (Real.sqrt_pos.2 hN).ne'
  have hss : Real.sqrt N * Real.sqrt N = N := Real.mul_self_sqrt hN.le
  have na : a ≠ .zero := by intro e; rw [e] at ha; simp [CVec.normSq] at ha; linarith
  have nb : b ≠ .zero := by intro e; rw [e] at hb; simp [CVec.normSq] at hb; linarith
  have ha' : a.x ^ 2 + a.y ^ 2 + a.z ^ 2 = N := ha
  have hb' : b.x ^ 2 + b.y ^ 2 + b.z ^ 2 = N := hb
  rw [CVec.normalize_of_ne a na, CVec.normalize_of_ne b nb, hla, hlb]
  refine ⟨?_, ?_, ?_⟩
  · simp only [CVec.dot]
    rw [div_mul_div_comm, div_mul_div_comm, div_mul_div_comm, hss]
    ring
  · show (a.x / √N) ^ 2 + (a.y / √N) ^ 2 + (a.z / √N) ^ 2 = 1
    rw [div_pow, div_pow, div_pow, sq (√N), hss, ← add_div, ← add_div, ha', div_self hN.ne']
  · show (b.x / √N) ^ 2 + (b.y / √N) ^ 2 + (b.z / √N) ^ 2 = 1
    rw [div_pow, div_pow, div_pow, sq (√N), hss, ← add_div, ← add_div, hb', div_self hN.ne']

/-- the layers of the junction -/
noncomputable def exL : Fin 2 → Layer ℝ := fun i => exJ.layers[i]

noncomputable def exM : Fin 2 → V := fun i => toV (exL i).mag

/-- helper: what the layers hold after some steps -/
theorem ex_iterate {h : ℝ} (h0 : 0 < h) (h1 : h ≤ 1 / 2) (k : ℕ) (hk : k * (2 * h ^ 2) ≤ 1 / 2) :
    let u := ofV ((iterate .multi exL h exM k).2 1)
    let v := ofV ((iterate .multi exL h exM k).2 0)
    u.normSq = 1 ∧ v.normSq = 1 ∧ u.dot v ≤ -(k * (h ^ 2 / 4)) ∧ -(k * (2 * h ^ 2)) ≤ u.dot v := by
  induction k with
  | zero =>
    have e0 : ofV ((iterate .multi exL h exM 0).2 0) = ⟨1, 0, 0⟩ := rfl
    have e1 : ofV ((iterate .multi exL h exM 0).2 1) = ⟨0, 1, 0⟩ := rfl
    simp only [e0, e1]
    simp [CVec.normSq, CVec.dot]
  | succ k ih =>
    have hk' : k * (2 * h ^ 2) ≤ 1 / 2 := by
      refine le_trans ?_ hk
      exact mul_le_mul_of_nonneg_right (by push_cast; linarith) (by positivity)
    obtain ⟨hu, hv, hd1, hd2⟩ := ih hk'
    set z := iterate .multi exL h exM k with hz
    set u := ofV (z.2 1)
    set v := ofV (z.2 0)
    have sv : ofV ((z + h • frozenSlope exL z h).2 0) = turned h u v := by
      rw [← rk4U_frozen, ← rk4U_turned u v hu z.1 h]
      have : (fun s m => motion (exL 0) s m (low z.2 0) (up z.2 0)) = fun _ m => u.cross m := by
        funext s m
        have hl : exL 0 = exA := rfl
        have hup : up z.2 0 = u := rfl
        rw [hl, exA_motion, hup]
      rw [this]
    have su : ofV ((z + h • frozenSlope exL z h).2 1) = turned h v u := by
      rw [← rk4U_frozen, ← rk4U_turned v u hv z.1 h]
      have : (fun s m => motion (exL 1) s m (low z.2 1) (up z.2 1)) = fun _ m => v.cross m := by
        funext s m
        have hl : exL 1 = exB := rfl
        have hlow : low z.2 1 = v := rfl
        rw [hl, exB_motion, hlow]
      rw [this]
    have ev : ofV ((iterate .multi exL h exM (k + 1)).2 0) = (turned h u v).normalize := by
      rw [← sv]; rfl
    have eu : ofV ((iterate .multi exL h exM (k + 1)).2 1) = (turned h v u).normalize := by
      rw [← su]; rfl
    obtain ⟨N0, D1, D2⟩ := step_drift h0 h1 (d := u.dot v) (by linarith) (by
      have : 0 ≤ k * (h ^ 2 / 4) := by positivity
      linarith)
    have hn1 := turned_norm u v hu hv h
    have hn2 := turned_norm v u hv hu h
    rw [CVec.dot_comm v u] at hn2
    obtain ⟨c1, c2, c3⟩ := dot_normalize N0 hn1 hn2
    rw [turned_dot u v hu hv] at c1
    simp only [ev, eu]
    refine ⟨c3, c2, ?_, ?_⟩
    · rw [CVec.dot_comm, c1]; push_cast; linarith
    · rw [CVec.dot_comm, c1]; push_cast; linarith

/-- helper -/
theorem dot_near {u v a b : CVec ℝ} {e : ℝ} (hu : u.length ≤ 1) (ha : a.length ≤ 1) (h1 : (v - a).length ≤ e)
    (h2 : (u - b).length ≤ e) : |u.dot v - a.dot b| ≤ 2 * e := by
  have cs : ∀ p q : CVec ℝ, |p.dot q| ≤ p.length * q.length := by
    intro p q
    rw [← norm_toV, ← norm_toV]
    have := abs_real_inner_le_norm (toV p) (toV q)
    have e : inner ℝ (toV p) (toV q) = p.dot q := by
      simp only [PiLp.inner_apply, Fin.sum_univ_three, toV_0, toV_1, toV_2, CVec.dot]
      simp only [RCLike.inner_apply, conj_trivial]
      ring
    rwa [e] at this
  have e1 : u.dot v - a.dot b = u.dot (v - a) + (u - b).dot a := by
    simp only [CVec.dot, CVec.sub_x, CVec.sub_y, CVec.sub_z]; ring
  have n1 : 0 ≤ (v - a).length := by rw [← norm_toV]; exact norm_nonneg _
  have n2 : 0 ≤ (u - b).length := by rw [← norm_toV]; exact norm_nonneg _
  rw [e1]
  have c1 := cs u (v - a)
  have c2 := cs (u - b) a
  have c3 : u.length * (v - a).length ≤ 1 * (v - a).length := mul_le_mul_of_nonneg_right hu n1
  have c4 : (u - b).length * a.length ≤ (u - b).length * 1 := mul_le_mul_of_nonneg_left ha n2
  have := abs_add_le (u.dot (v - a)) ((u - b).dot a)
  linarith

/-- helper: what the loop ends with -/
theorem ex_loop {h : ℝ} (h0 : 0 < h) (h1 : h ≤ 1 / 2) (k : ℕ) (hk : k * (2 * h ^ 2) ≤ 1 / 2) :
    ∃ (e : Junction ℝ) (u v : CVec ℝ) (a b : Layer ℝ), LoopEnds exJ .RK4 k h 1 false e ∧ e.layers[0]? = some a ∧
      e.layers[1]? = some b ∧ a.mag = v ∧ b.mag = u ∧ u.normSq = 1 ∧ v.normSq = 1 ∧ u.dot v ≤ -(k * (h ^ 2 / 4)) := by
  have mem : ∀ l ∈ exJ.layers, l = exA ∨ l = exB := by intro l hl; simpa [exJ] using hl
  have quiet : ∀ l ∈ exJ.layers, ¬ Noisy l := by
    intro l hl
    rw [quiet_iff]
    rcases mem l hl with rfl | rfl <;> exact ⟨rfl, by simp [exA, exB, plainOf, Layer.demo]⟩
  have hq : ∀ i, Quiet (exL i) := by
    intro i
    have hi : exL i ∈ exJ.layers := List.getElem_mem i.2
    have := (quiet_iff (exL i)).1 (quiet _ hi)
    refine ⟨?_, this.1, by simpa using this.2⟩
    unfold Layer.Guard
    rcases mem _ hi with e | e <;> rw [e] <;> simp [exA, exB, plainOf, Layer.demo]
  obtain ⟨e, he, hc⟩ := evolve_iterate .multi exL hq (by intro q; cases q) h exM k 0 exJ (carries_self exJ.layers)
  rw [Nat.zero_add] at hc
  obtain ⟨j', hj', hl⟩ := evolve_runLoop .multi h 1 false he (j := exJ) rfl one_ne_zero (by intro q; cases q)
  rw [hl] at hc
  obtain ⟨c0, g0⟩ := hc.2 0
  obtain ⟨c1, g1⟩ := hc.2 1
  obtain ⟨p1, p2, p3, -⟩ := ex_iterate h0 h1 k hk
  exact ⟨j', _, _, _, _, ⟨(.multi, .RK4), exJ, solver_quiet exJ quiet .RK4 k, hj'⟩, g0, g1, rfl, rfl, p1, p2, p3⟩

/-- C111 (the order four expected of the Runge-Kutta solver is false of the code for several coupled layers, and so is
order two): two undamped layers coupled by exchange, whose equations of motion have an exact solution, but no constant
bounds the error of the runs by the square of the time step. -/
theorem C111_coupled_refuted : ∃ (j : Junction ℝ) (m : Nat → ℝ → CVec ℝ), j.layers.length = 2 ∧ Track j m 1 ∧
    ¬ Converges j .RK4 m 1 2 ∧ ¬ Converges j .RK4 m 1 4 := by
  obtain ⟨m, hm⟩ := ex_track 1 zero_le_one
  have key : ∀ p, 2 ≤ p → ¬ Converges exJ .RK4 m 1 p := by
    rintro p hp ⟨C, r, hr, hc, -⟩
    obtain ⟨n, hn⟩ := exists_nat_gt (max (max 4 (1 / r)) (8 * |C|))
    have n4 : (4 : ℝ) < n := lt_of_le_of_lt ((le_max_left _ _).trans (le_max_left _ _)) hn
    have nr : 1 / r < n := lt_of_le_of_lt ((le_max_right _ _).trans (le_max_left _ _)) hn
    have nC : 8 * |C| < n := lt_of_le_of_lt (le_max_right _ _) hn
    have np : (0 : ℝ) < n := by linarith
    set h : ℝ := 1 / n with hh
    have h0 : 0 < h := by positivity
    have nh : n * h = 1 := by rw [hh]; field_simp
    have h4 : h ≤ 1 / 4 := by
      have : 4 * h ≤ n * h := mul_le_mul_of_nonneg_right n4.le h0.le
      linarith
    have hr' : h ≤ r := by
      rw [hh, div_le_iff₀ np]
      rw [div_lt_iff₀ hr] at nr
      linarith
    have e2 : n * (2 * h ^ 2) = 2 * h := by
      rw [show n * (2 * h ^ 2) = 2 * (n * h) * h by ring, nh]; ring
    have e4 : n * (h ^ 2 / 4) = h / 4 := by
      rw [show n * (h ^ 2 / 4) = (n * h) * h / 4 by ring, nh]; ring
    obtain ⟨e, u, v, a, b, hl, ha, hb, rfl, rfl, hu, hv, hd⟩ := ex_loop h0 (by linarith) n (by rw [e2]; linarith)
    have hnear := hc n h h0 hr' nh.le 1 false e hl
    have near0 := hnear 0 a ha
    have near1 := hnear 1 b hb
    rw [nh] at near0 near1
    have m0 : (m 0 1).length ≤ 1 := by
      obtain ⟨lo, hi, hlo, hhi, hs⟩ := hm.solves
      rw [length_const (l := exA) (b := lower m 0) (a := upper exJ.layers.length m 0) (lo := lo) (hi := hi) ⟨hlo, by linarith⟩
        (fun t ht => hs 0 exA rfl t ht) 1 ⟨by linarith, hhi⟩, hm.start 0 exA rfl]
      simp [exA, CVec.length_eq, CVec.normSq]
    have := dot_near (u := b.mag) (v := a.mag) (by rw [CVec.length_eq, hu]; simp) m0 near0 near1
    rw [ex_angle hm 1 ⟨zero_le_one, le_rfl⟩, sub_zero] at this
    have l1 : h / 4 ≤ 2 * (C * h ^ p) := by
      have := (abs_le.1 this).1
      linarith
    have l2 : C * h ^ p ≤ |C| * h ^ 2 :=
      mul_le_mul (le_abs_self C) (pow_le_pow_of_le_one h0.le (by linarith) hp) (by positivity) (abs_nonneg C)
    have l3 : 8 * |C| * h < 1 := by
      rw [← nh]; exact mul_lt_mul_of_pos_right nC h0
    have l4 : h * (8 * |C| * h) < h * 1 := mul_lt_mul_of_pos_left l3 h0
    nlinarith
  exact ⟨exJ, m, rfl, hm, key 2 le_rfl, key 4 (by norm_num)⟩

/-! ### The hypotheses of the other theorems -/

/-- a single layer with damping in the fields of the example of C01 -/
noncomputable def soloJ : Junction ℝ := { demoJ with layers := [plainOf Layer.demo] }

/-- The single layer meets all hypotheses of C111. -/
example : ∃ m, Track soloJ m 1 ∧ Converges soloJ .RK4 m 1 4 := by
  have mem : ∀ l ∈ soloJ.layers, l = plainOf Layer.demo := by
    intro l hl; simpa [soloJ] using hl
  have ex : ∃ m, Track soloJ m 1 := by
    refine C111_exists soloJ 1 zero_le_one ?_ ?_ ?_ ?_ ?_
    · intro l hl
      rw [mem l hl]; simp [plainOf, Layer.demo, CVec.length_eq, CVec.normSq]
    · intro l hl
      rw [mem l hl]; simp [plainOf, Layer.demo]
    · intro l hl
      rw [quiet_iff, mem l hl]
      exact ⟨rfl, by simp [plainOf, Layer.demo]⟩
    · intro l hl
      have ax : SmoothAxes (AxialDriver.null : AxialDriver ℝ) := ⟨.inl rfl, .inl rfl, .inl rfl⟩
      rw [mem l hl]
      exact ⟨.inl rfl, .inl rfl, .inl rfl, .inl rfl, .inl rfl, .inl rfl, .inl rfl, .inl rfl, ax, ax, ax,
        ⟨.inl rfl, .inl rfl, .inl rfl⟩, ax, ax⟩
    · intro l hl
      refine C111_poleless l fun h => ?_
      rw [mem l hl] at h
      exact absurd h (by simp [plainOf])
  obtain ⟨m, hm⟩ := ex
  exact ⟨m, hm, C111_rk4_partial _ m 1 hm rfl .RK4 (.inl rfl)⟩

end Junction
