import Verif.Lemmas.ConvLlgb
import Verif.Props.LlgbRuns
import Verif.Props.LlgbSteps

/-!
C112: LLGB runs converge to the solution of the Landau-Lifshitz-Bloch equation when the time step is refined.
-/

set_option linter.unusedSectionVars false
set_option linter.unusedSimpArgs false

namespace LLGBJunction
open Spec Order Order.Llgb LLGBLayer

/-- helper -/
theorem steady_rate {l : LLGBLayer ℝ} (h : Steady l) (s t : ℝ) (m : CVec ℝ) : llbRate l s m = llbRate l t m := by
  unfold llbRate
  rw [h.temperature s, h.anisotropy s, h.external s, h.temperature t, h.anisotropy t, h.external t]

/-- helper -/
theorem steady_iterate {n : Nat} (r : Runner) (L : Fin n → LLGBLayer ℝ) (h : ∀ i, Steady (L i)) (dt s t : ℝ) (M : Fin n → V)
    (k : ℕ) : (Order.Llgb.iterate r L dt s M k).2 = (Order.Llgb.iterate r L dt t M k).2 := by
  have hs : ∀ z w : X n, z.2 = w.2 → (Order.Llgb.rhs L z).2 = (Order.Llgb.rhs L w).2 := by
    intro z w e
    funext i
    show toV (llbRate (L i) z.1 (ofV (z.2 i))) = toV (llbRate (L i) w.1 (ofV (w.2 i)))
    rw [steady_rate (h i) z.1 w.1, e]
  have hsl : ∀ z w : X n, z.2 = w.2 → (slope r L z dt).2 = (slope r L w dt).2 := by
    intro z w e
    cases r with
    | heun =>
      show (1 / 2 : ℝ) • ((Order.Llgb.rhs L z).2 + (Order.Llgb.rhs L (z + (1 * dt) • Order.Llgb.rhs L z)).2) =
        (1 / 2 : ℝ) • ((Order.Llgb.rhs L w).2 + (Order.Llgb.rhs L (w + (1 * dt) • Order.Llgb.rhs L w)).2)
      rw [hs z w e, hs (z + (1 * dt) • Order.Llgb.rhs L z) (w + (1 * dt) • Order.Llgb.rhs L w) (by
        show z.2 + (1 * dt) • (Order.Llgb.rhs L z).2 = w.2 + (1 * dt) • (Order.Llgb.rhs L w).2
        rw [e, hs z w e])]
    | eulerHeun => exact hs z w e
  induction k with
  | zero => rfl
  | succ k ih =>
    show (Order.Llgb.iterate r L dt s M k).2 + dt • (slope r L (Order.Llgb.iterate r L dt s M k) dt).2 =
      (Order.Llgb.iterate r L dt t M k).2 + dt • (slope r L (Order.Llgb.iterate r L dt t M k) dt).2
    rw [ih, hsl _ _ ih]

/-- helper: errors of the states of the scheme, started at time `s dt` -/
theorem llgb_global {j : LLGBJunction ℝ} {m : Nat → ℝ → CVec ℝ} {T : ℝ} (hT : 0 ≤ T) (h : LlgbTrack j m T) (r : Runner) {p : ℕ}
    (hp1 : 1 ≤ p) (hp : p ≤ Order.Llgb.order r) :
    ∃ C q : ℝ, 0 < q ∧ ∀ (n : ℕ) (dt : ℝ), 0 ≤ dt → dt ≤ q → n * dt ≤ T → ∀ s : ℝ, |s - j.time| ≤ dt ^ p → ∀ i : Fin j.layers.length,
      ‖(Order.Llgb.iterate r (fun i => j.layers[i]) dt s (fun i => toV j.layers[i].mag) n).2 i - toV (m i.1 (j.time + n * dt))‖ ≤
        C * dt ^ p := by
  obtain ⟨lo, hi, hlo, hhi, hm⟩ := h.solves
  set N := j.layers.length with hN
  set L : Fin N → LLGBLayer ℝ := fun i => j.layers[i] with hL
  have mem : ∀ i : Fin N, L i ∈ j.layers := fun i => List.getElem_mem i.2
  have get : ∀ i : Fin N, j.layers[i.1]? = some (L i) := fun i => List.getElem?_eq_getElem i.2
  set y : ℝ → X N := fun s => joint N m (j.time + s) with hy
  have hd : ∀ t ∈ Set.Ioo (lo - j.time) (hi - j.time), HasDerivAt y (Order.Llgb.rhs L (y t)) t := fun t ht =>
    HasDerivAt.comp_const_add j.time t (Order.Llgb.joint_deriv hm (j.time + t) ⟨by linarith [ht.1], by linarith [ht.2]⟩)
  have hF : ∀ t ∈ Set.Icc 0 T, ContDiffAt ℝ 4 (Order.Llgb.rhs L) (y t) := by
    intro t ht
    have ht' : j.time + t ∈ Set.Icc j.time (j.time + T) := ⟨by linarith [ht.1], by linarith [ht.2]⟩
    refine Order.Llgb.rhs_smooth L _ (fun i => h.smooth _ (mem i) _ ht') fun i => ?_
    show (m i.1 (j.time + t)).normSq ≠ 0
    exact fun e => h.nonzero i.1 i.2 _ ht' ((CVec.normSq_eq_zero _).1 e)
  obtain ⟨hR, hFl⟩ := trajectory (by linarith) (by linarith) hd hF
  obtain ⟨C, q, hq0, hG⟩ := global_from (N := id) (U := Set.univ) (D := 1) hT hp1 zero_le_one
    ((slope_local r hR hFl).mono (by omega)) (slope_sl r hR) (fun t _ => trivial)
    (fun z _ u _ w _ => ⟨trivial, le_mul_of_one_le_left (norm_nonneg _) (by linarith [norm_nonneg (w - z)])⟩)
  refine ⟨C, q, hq0, fun n dt h0 hdt hn s hs i => ?_⟩
  set M : Fin N → V := fun i => toV (L i).mag with hM
  have z0 : ‖Order.Llgb.iterate r L dt s M 0 - y (((0 : ℕ) : ℝ) * dt)‖ ≤ 1 * dt ^ p := by
    have e : Order.Llgb.iterate r L dt s M 0 - y (((0 : ℕ) : ℝ) * dt) = (s - j.time, 0) := by
      refine Prod.ext ?_ (funext fun i => ?_)
      · show s - (j.time + ((0 : ℕ) : ℝ) * dt) = _
        simp
      · show toV (L i).mag - toV (m i.1 (j.time + ((0 : ℕ) : ℝ) * dt)) = 0
        rw [Nat.cast_zero, zero_mul, add_zero, h.start i.1 _ (get i), sub_self]
    rw [e, Prod.norm_def]
    simpa using hs
  have key := hG 0 n dt h0 hdt (by omega) hn (Order.Llgb.iterate r L dt s M) trivial z0 (fun k _ _ => rfl)
  refine le_trans ?_ key
  exact (norm_le_pi_norm ((Order.Llgb.iterate r L dt s M n).2 - (y (n * dt)).2) i).trans
    (norm_snd_le (Order.Llgb.iterate r L dt s M n - y (n * dt)))

/-- helper -/
theorem ends_core {j k : LLGBJunction ℝ} {mode : SolverMode} {n : Nat} {dt : ℝ} {we : Nat} (h : LlgbLoopEnds j mode n dt we k) :
    ∃ r, getSolver mode = .ok r ∧ Core (evolve r dt n j) k := by
  obtain ⟨r, hr, hl⟩ := h
  refine ⟨r, hr, ?_⟩
  rcases Nat.eq_zero_or_pos we with rfl | hw
  · cases n with
    | zero =>
      simp only [loop, Out.ok, Out.mk.injEq, true_and] at hl
      rw [← hl]; exact ⟨rfl, rfl⟩
    | succ n => rw [loop_succ, if_pos rfl] at hl; simp [Out.ok, Out.fail] at hl
  · obtain ⟨k', h1, h2⟩ := loop_core r dt we hw.ne' n 0 j
    rw [h1] at hl
    simp only [Out.ok, Out.mk.injEq, true_and] at hl
    rw [← hl]; exact h2

/-- helper -/
theorem llgb_converges {j : LLGBJunction ℝ} {m : Nat → ℝ → CVec ℝ} {T : ℝ} {mode : SolverMode} {p : Nat} {C q : ℝ} (hq : 0 < q)
    (h : ∀ (n : Nat) (dt : ℝ), 0 < dt → dt ≤ q → n * dt ≤ T → ∀ (we : Nat) (k : LLGBJunction ℝ),
      LlgbLoopEnds j mode n dt we k → LlgbNear k m (j.time + n * dt) (C * dt ^ p)) : LlgbConverges j mode m T p := by
  refine ⟨C, q, hq, h, fun dt total wf hdt hdr h0 hle k hk => ?_⟩
  obtain ⟨-, N, w, r, hN, -, hr, hl⟩ := run_inv hk
  have hq0 : 0 ≤ total / dt := div_nonneg h0 hdt.le
  have hNf : N = ⌊total / dt⌋₊ := by
    have hb : total / dt < 2147483648 := by
      by_contra hb
      have : (Stack.castUnsigned (total / dt) : Option Nat) = none := by
        unfold Stack.castUnsigned
        have : (Scalar.toInt (total / dt) : Option Int) = none := if_neg fun q => hb q.2
        rw [this]; rfl
      rw [this] at hN; cases hN
    rw [cast_floor hq0 hb] at hN
    exact (Option.some.inj hN).symm
  rw [← hNf]
  refine h N dt hdt hdr ?_ w k ⟨r, hr, hl⟩
  rw [hNf]
  have := Nat.floor_le hq0
  rw [le_div_iff₀ hdt] at this
  linarith

/-- helper -/
theorem llgb_near {j : LLGBJunction ℝ} {m : Nat → ℝ → CVec ℝ} {r : Runner} {n : ℕ} {dt e : ℝ} {k : LLGBJunction ℝ}
    (hc : Core (evolve r dt n j) k) (h : ∀ i : Fin j.layers.length,
      ‖(Order.Llgb.iterate r (fun i => j.layers[i]) dt (j.time + dt) (fun i => toV j.layers[i].mag) n).2 i -
        toV (m i.1 (j.time + n * dt))‖ ≤ e) : LlgbNear k m (j.time + n * dt) e := by
  intro i l hl
  have hh := Order.Llgb.evolve_iterate r (fun i : Fin j.layers.length => j.layers[i]) dt j.time (fun i => toV j.layers[i].mag) n 0 j
    (holds_self j.layers) (by simp)
  rw [Nat.zero_add, ← hc.1] at hh
  have hi : i < j.layers.length := by rw [← hh.1]; exact (List.getElem?_eq_some_iff.1 hl).1
  obtain ⟨l', hl', -, hm⟩ := hh.2 ⟨i, hi⟩
  have : some l = some l' := by rw [← hl, ← hl']
  cases this
  rw [hm, ← norm_toV, toV_sub, toV_ofV]
  exact h ⟨i, hi⟩

/-- helper -/
theorem solver_order {mode : SolverMode} {r : Runner} (h : getSolver mode = .ok r) : 1 ≤ Order.Llgb.order r := by
  cases r <;> decide

/-- C112: the loops the statements quantify over do end, after any number of steps, with both solvers. -/
theorem C112_ends (j : LLGBJunction ℝ) {mode : SolverMode} (hm : mode = .HEUN ∨ mode = .EULER_HEUN) (n : Nat) (dt : ℝ) {we : Nat}
    (hw : we ≠ 0) : ∃ k, LlgbLoopEnds j mode n dt we k ∧ k.time = j.time + n * dt := by
  obtain ⟨r, hr⟩ : ∃ r, getSolver mode = .ok r := by
    rcases hm with rfl | rfl <;> simp [getSolver]
  obtain ⟨k, h, hc⟩ := loop_core r dt we hw n 0 j
  refine ⟨k, ⟨r, hr, h⟩, ?_⟩
  rw [hc.2]
  clear h hc
  induction n generalizing j with
  | zero => simp [evolve]
  | succ n ih =>
    have : evolve r dt (n + 1) j = evolve r dt n (tick r dt j) := rfl
    rw [this, ih]
    show j.time + dt + n * dt = _
    push_cast; ring

/-- C112. Runs of an LLGB junction converge with order one, with both solvers and any smooth drivers. -/
theorem C112_all (j : LLGBJunction ℝ) (m : Nat → ℝ → CVec ℝ) (T : ℝ) (h : LlgbTrack j m T) (mode : SolverMode) :
    LlgbConverges j mode m T 1 := by
  by_cases hT : 0 ≤ T
  swap
  · refine llgb_converges (C := 0) one_pos fun n dt hdt _ hn => absurd ?_ hT
    exact le_trans (by positivity) hn
  obtain ⟨C1, q1, hq1, h1⟩ := llgb_global hT h .heun le_rfl (by decide)
  obtain ⟨C2, q2, hq2, h2⟩ := llgb_global hT h .eulerHeun le_rfl (by decide)
  refine llgb_converges (C := max C1 C2) (lt_min hq1 hq2) fun n dt hdt hdq hn we k hk => ?_
  obtain ⟨r, hr, hc⟩ := ends_core hk
  have hs : |j.time + dt - j.time| ≤ dt ^ 1 := by rw [add_sub_cancel_left, abs_of_pos hdt, pow_one]
  refine llgb_near hc fun i => ?_
  cases r with
  | heun =>
    refine (h1 n dt hdt.le (hdq.trans (min_le_left _ _)) hn _ hs i).trans ?_
    exact mul_le_mul_of_nonneg_right (le_max_left _ _) (by positivity)
  | eulerHeun =>
    refine (h2 n dt hdt.le (hdq.trans (min_le_right _ _)) hn _ hs i).trans ?_
    exact mul_le_mul_of_nonneg_right (le_max_right _ _) (by positivity)

/-- C112 for drivers that do not depend on time: runs with Heun's solver converge with order two. (For drivers that depend on
time, where the full statement claims the same, see `C112_heun_refuted` and `C112_all`.) -/
theorem C112_heun_partial (j : LLGBJunction ℝ) (m : Nat → ℝ → CVec ℝ) (T : ℝ) (h : LlgbTrack j m T)
    (hs : ∀ l ∈ j.layers, Steady l) : LlgbConverges j .HEUN m T 2 := by
  by_cases hT : 0 ≤ T
  swap
  · refine llgb_converges (C := 0) one_pos fun n dt hdt _ hn => absurd ?_ hT
    exact le_trans (by positivity) hn
  obtain ⟨C, q, hq, h1⟩ := llgb_global hT h .heun (p := 2) (by norm_num) le_rfl
  refine llgb_converges (C := C) hq fun n dt hdt hdq hn we k hk => ?_
  obtain ⟨r, hr, hc⟩ := ends_core hk
  have : r = .heun := by
    simp only [getSolver, if_true, Except.ok.injEq] at hr
    exact hr.symm
  subst this
  refine llgb_near hc fun i => ?_
  rw [steady_iterate .heun (fun i : Fin j.layers.length => j.layers[i]) (fun i => hs _ (List.getElem_mem i.2)) dt (j.time + dt) j.time]
  exact h1 n dt hdt.le hdq hn _ (by simp; positivity) i

/-! ### An undamped layer in an alternating field -/

/-- A magnetisation along x in a field along z that alternates as a cosine. -/
noncomputable def waveL : LLGBLayer ℝ :=
  { warmLayer with
    temperatureDriver := .null, damping := 0, mag := ⟨1, 0, 0⟩,
    externalFieldDriver := ⟨.null, .null, ⟨.sine, 0, 1 / 220880, 1 / (2 * Real.pi), Real.pi / 2, -1, -1, -1, -1, -1, -1⟩⟩ }

noncomputable def waveJ : LLGBJunction ℝ := mk' [waveL]

/-- The magnetisation precesses about the field. -/
noncomputable def wave (t : ℝ) : CVec ℝ := ⟨Real.cos (Real.sin t), Real.sin (Real.sin t), 0⟩

/-- helper: vectors in the plane as complex numbers -/
noncomputable def plane (w : ℂ) : CVec ℝ := ⟨w.re, w.im, 0⟩

/-- helper -/
theorem wave_field (t : ℝ) : waveL.externalFieldDriver.value t = ⟨0, 0, Real.cos t / 220880⟩ := by
  have e : 2 * Real.pi * t * (1 / (2 * Real.pi)) = t := by field_simp
  ext
  · simp [waveL, AxialDriver.value, ScalarDriver.value, ScalarDriver.null]
  · simp [waveL, AxialDriver.value, ScalarDriver.value, ScalarDriver.null]
  · simp only [waveL, AxialDriver.value, ScalarDriver.value, Scalar.ofNat_real, Scalar.pi_real, Scalar.sin_real]
    norm_num
    rw [show 2 * Real.pi * t * (Real.pi⁻¹ * (1 / 2)) = t by field_simp, Real.sin_add_pi_div_two]
    ring

/-- helper -/
theorem wave_rate (t : ℝ) (w : ℂ) : llbRate waveL t (plane w) = plane (Complex.I * Real.cos t * w) := by
  have hT : waveL.temperatureDriver.value t = 0 := by simp [waveL, ScalarDriver.null, ScalarDriver.value]
  have hK : waveL.anisotropyDriver.value t = 0 := by simp [waveL, warmLayer, ScalarDriver.null, ScalarDriver.value]
  have hd : waveL.damping = 0 := rfl
  have hc : waveL.Tc = 700 := rfl
  have hg : (Const.gyro : ℝ) = 220880 := by norm_num [Const.gyro]
  unfold llbRate llb
  rw [hT, hK, hd, hc, wave_field, hg]
  simp only [alphaParallel, alphaPerpendicular, longitudinalField, if_pos (show (0 : ℝ) ≤ 700 by norm_num),
    if_pos (show (0 : ℝ) < 700 by norm_num)]
  ext <;> simp [plane, CVec.cross, CVec.dot, Complex.ofReal_re, -Complex.ofReal_cos] <;> ring

/-- helper: factor of a step -/
noncomputable def gain (h t : ℝ) : ℂ :=
  1 + h / 2 * (Complex.I * Real.cos t + Complex.I * Real.cos (t + h) * (1 + h * (Complex.I * Real.cos t)))

/-- helper -/
theorem wave_iterate (h t : ℝ) (k : ℕ) : (Order.Llgb.iterate .heun (fun _ : Fin 1 => waveL) h t (fun _ => toV waveL.mag) k).2 0 =
    toV (plane (∏ i ∈ Finset.range k, gain h (t + i * h))) := by
  induction k with
  | zero =>
    show toV waveL.mag = _
    exact congrArg toV (by ext <;> simp [waveL, plane])
  | succ k ih =>
    set z := Order.Llgb.iterate .heun (fun _ : Fin 1 => waveL) h t (fun _ => toV waveL.mag) k with hz
    set w := ∏ i ∈ Finset.range k, gain h (t + i * h) with hw
    have ht : z.1 = t + k * h := iterate_time _ _ _ _ _ _
    have h1 : (slope .heun (fun _ : Fin 1 => waveL) z h).2 0 = (1 / 2 : ℝ) • (toV (llbRate waveL z.1 (ofV (z.2 0))) +
        toV (llbRate waveL (z.1 + 1 * h * 1) (ofV (z.2 0 + (1 * h) • toV (llbRate waveL z.1 (ofV (z.2 0))))))) := rfl
    show z.2 0 + h • (slope .heun (fun _ : Fin 1 => waveL) z h).2 0 = _
    rw [h1, ih, ht, ofV_toV, wave_rate, Finset.prod_range_succ, ← hw]
    have h2 : ofV (toV (plane w) + (1 * h) • toV (plane (Complex.I * Real.cos (t + k * h) * w))) =
        plane (w + h * (Complex.I * Real.cos (t + k * h) * w)) := by
      ext <;> simp [plane, toV, ofV]
    rw [h2, one_mul, mul_one, wave_rate]
    have h3 : ∀ a b c : ℂ, toV (plane a) + h • ((1 / 2 : ℝ) • (toV (plane b) + toV (plane c))) = toV (plane (a + h / 2 * (b + c))) := by
      intro a b c
      ext i
      fin_cases i <;> simp [plane, toV] <;> ring
    rw [h3]
    congr 2
    unfold gain
    ring

/-- helper -/
theorem wave_iterate' (h t : ℝ) (k : ℕ) : (Order.Llgb.iterate .heun (fun i : Fin waveJ.layers.length => waveJ.layers[i]) h t
    (fun i => toV waveJ.layers[i].mag) k).2 ⟨0, by simp [waveJ, mk']⟩ =
    toV (plane (∏ i ∈ Finset.range k, gain h (t + i * h))) := by
  rw [← wave_iterate]
  have e : (fun i : Fin waveJ.layers.length => waveJ.layers[i]) = fun _ : Fin 1 => waveL := by
    funext i
    have : i = (0 : Fin 1) := Subsingleton.elim (α := Fin 1) _ _
    subst this; rfl
  have e' : (fun i : Fin waveJ.layers.length => toV waveJ.layers[i].mag) = fun _ : Fin 1 => toV waveL.mag := by
    funext i
    exact congrArg (fun l : LLGBLayer ℝ => toV l.mag) (congrFun e i)
  rw [e, e']
  rfl

/-- helper -/
theorem wave_track : LlgbTrack waveJ (fun _ => wave) Real.pi := by
  have mem : ∀ l ∈ waveJ.layers, l = waveL := by intro l hl; simpa [waveJ, mk'] using hl
  have htime : waveJ.time = 0 := by simp [waveJ, mk']
  refine ⟨⟨-1, Real.pi + 1, ?_, ?_, ?_⟩, ?_, ?_, ?_⟩
  · rw [htime]; norm_num
  · rw [htime]; norm_num
  · intro i l hl t ht
    rw [mem l (List.mem_of_getElem? hl)]
    have e : wave t = plane (Complex.exp (Real.sin t * Complex.I)) := by
      ext <;> simp [wave, plane, Complex.exp_ofReal_mul_I_re, Complex.exp_ofReal_mul_I_im, -Complex.ofReal_sin]
    have hs := Real.hasDerivAt_sin t
    show Slope wave (llbRate waveL t (wave t)) t
    rw [e, wave_rate]
    refine ⟨?_, ?_, ?_⟩
    · refine (hs.cos).congr_deriv ?_
      simp [plane, Complex.exp_ofReal_mul_I_re, Complex.exp_ofReal_mul_I_im, -Complex.ofReal_sin, -Complex.ofReal_cos]
      ring
    · refine (hs.sin).congr_deriv ?_
      simp [plane, Complex.exp_ofReal_mul_I_re, Complex.exp_ofReal_mul_I_im, -Complex.ofReal_sin, -Complex.ofReal_cos]
      ring
    · exact hasDerivAt_const t 0
  · intro i l hl
    rw [mem l (List.mem_of_getElem? hl), htime]
    ext <;> simp [wave, waveL]
  · intro l hl t ht
    rw [mem l hl]
    have hf : waveL.externalFieldDriver.value = fun t => ⟨0, 0, Real.cos t / 220880⟩ := funext wave_field
    refine ⟨?_, ?_, ?_, ?_⟩
    · exact contDiffAt_const
    · exact contDiffAt_const
    · rw [hf]
      exact ⟨contDiffAt_const, contDiffAt_const, Real.contDiff_cos.contDiffAt.div_const _⟩
    · simp [waveL, warmLayer, ScalarDriver.null, ScalarDriver.value]
  · intro i _ t _ e
    have h := Real.cos_sq_add_sin_sq (Real.sin t)
    rw [CVec.eq_zero_iff] at e
    simp only [wave] at e
    rw [e.1, e.2.1] at h
    norm_num at h

/-- The hypotheses of `C112_all` hold for the layer in the alternating field. -/
example : ∃ (j : LLGBJunction ℝ) (m : Nat → ℝ → CVec ℝ) (T : ℝ), 0 < T ∧ j.layers ≠ [] ∧ LlgbTrack j m T ∧
    LlgbConverges j .EULER_HEUN m T 1 :=
  ⟨waveJ, fun _ => wave, Real.pi, Real.pi_pos, by simp [waveJ, mk'], wave_track, C112_all _ _ _ wave_track _⟩

/-- The layer in a constant field. -/
noncomputable def calmL : LLGBLayer ℝ :=
  { waveL with externalFieldDriver := ⟨.null, .null, .constantDriver (1 / 220880)⟩ }

/-- helper -/
theorem calm_rate (t : ℝ) (m : CVec ℝ) : llbRate calmL t m = ⟨-m.y, m.x, 0⟩ := by
  have hT : calmL.temperatureDriver.value t = 0 := by simp [calmL, waveL, ScalarDriver.null, ScalarDriver.value]
  have hK : calmL.anisotropyDriver.value t = 0 := by simp [calmL, waveL, warmLayer, ScalarDriver.null, ScalarDriver.value]
  have hE : calmL.externalFieldDriver.value t = ⟨0, 0, 1 / 220880⟩ := by
    ext <;> simp [calmL, AxialDriver.value, ScalarDriver.value, ScalarDriver.null, ScalarDriver.constantDriver]
  have hd : calmL.damping = 0 := rfl
  have hc : calmL.Tc = 700 := rfl
  have hg : (Const.gyro : ℝ) = 220880 := by norm_num [Const.gyro]
  unfold llbRate llb
  rw [hT, hK, hd, hc, hE, hg]
  simp only [alphaParallel, alphaPerpendicular, longitudinalField, if_pos (show (0 : ℝ) ≤ 700 by norm_num),
    if_pos (show (0 : ℝ) < 700 by norm_num)]
  ext <;> simp [CVec.cross, CVec.dot] <;> ring

/-- The hypotheses of `C112_heun_partial` hold for the layer in a constant field: the magnetisation turns uniformly. -/
example : ∃ (j : LLGBJunction ℝ) (m : Nat → ℝ → CVec ℝ) (T : ℝ), 0 < T ∧ j.layers ≠ [] ∧ LlgbTrack j m T ∧
    (∀ l ∈ j.layers, Steady l) ∧ m 0 0 ≠ m 0 T ∧ LlgbConverges j .HEUN m T 2 := by
  have mem : ∀ l ∈ (mk' [calmL]).layers, l = calmL := by intro l hl; simpa [mk'] using hl
  have htime : (mk' [calmL]).time = 0 := by simp [mk']
  have hs : ∀ l ∈ (mk' [calmL]).layers, Steady l := by
    intro l hl
    rw [mem l hl]
    exact ⟨fun t => rfl, fun t => rfl, fun t => rfl⟩
  have ht : LlgbTrack (mk' [calmL]) (fun _ t => ⟨Real.cos t, Real.sin t, 0⟩) 1 := by
    refine ⟨⟨-1, 2, ?_, ?_, ?_⟩, ?_, ?_, ?_⟩
    · rw [htime]; norm_num
    · rw [htime]; norm_num
    · intro i l hl t ht
      rw [mem l (List.mem_of_getElem? hl), calm_rate]
      exact ⟨Real.hasDerivAt_cos t, Real.hasDerivAt_sin t, hasDerivAt_const t 0⟩
    · intro i l hl
      rw [mem l (List.mem_of_getElem? hl), htime]
      ext <;> simp [calmL, waveL]
    · intro l hl t _
      rw [mem l hl]
      exact ⟨contDiffAt_const, contDiffAt_const, ⟨contDiffAt_const, contDiffAt_const, contDiffAt_const⟩,
        by simp [calmL, waveL, warmLayer, ScalarDriver.null, ScalarDriver.value]⟩
    · intro i _ t _ e
      have h := Real.cos_sq_add_sin_sq t
      rw [CVec.eq_zero_iff] at e
      simp only at e
      rw [e.1, e.2.1] at h
      norm_num at h
  refine ⟨_, _, 1, one_pos, by simp [mk'], ht, hs, ?_, C112_heun_partial _ _ _ ht hs⟩
  intro e
  have := congrArg CVec.y e
  simp only [Real.sin_zero] at this
  exact absurd this (Real.sin_pos_of_pos_of_le_one one_pos le_rfl).ne

/-- helper -/
theorem plane_norm (a b : ℂ) : ‖toV (plane a) - toV (plane b)‖ = ‖a - b‖ := by
  rw [← toV_sub, norm_toV, CVec.length_eq, Complex.norm_eq_sqrt_sq_add_sq]
  congr 1
  simp [CVec.normSq, plane]
  try ring

/-- helper: sampling the field one step late is the same as one more step at the end and one less at the beginning -/
theorem gain_shift (h t : ℝ) (n : ℕ) : (∏ i ∈ Finset.range n, gain h (t + h + i * h)) * gain h t =
    (∏ i ∈ Finset.range n, gain h (t + i * h)) * gain h (t + n * h) := by
  have h1 := Finset.prod_range_succ (fun i : ℕ => gain h (t + i * h)) n
  rw [← h1, Finset.prod_range_succ']
  simp only [Nat.cast_zero, zero_mul, add_zero]
  congr 1
  refine Finset.prod_congr rfl fun i _ => ?_
  congr 1
  push_cast; ring

/-- helper -/
theorem gain_change {h : ℝ} (h0 : 0 ≤ h) (h1 : h ≤ 1) : h ≤ ‖gain h Real.pi - gain h 0‖ ∧ ‖gain h 0‖ ≤ 3 := by
  constructor
  · have e : gain h Real.pi - gain h 0 = ((-(h * (1 + Real.cos h)) : ℝ) : ℂ) * Complex.I := by
      unfold gain
      rw [zero_add, show Real.pi + h = h + Real.pi by ring, Real.cos_add_pi, Real.cos_pi, Real.cos_zero]
      push_cast
      linear_combination (0 : ℂ) * Complex.I_sq
    have hc : 0 ≤ Real.cos h := Real.cos_nonneg_of_mem_Icc ⟨by linarith [Real.pi_pos], by linarith [Real.two_le_pi]⟩
    rw [e, norm_mul, Complex.norm_I, mul_one, Complex.norm_real, Real.norm_eq_abs, abs_neg, abs_of_nonneg (by positivity)]
    nlinarith
  · have hI : ∀ x : ℝ, ‖Complex.I * (Real.cos x : ℂ)‖ ≤ 1 := fun x => by
      rw [norm_mul, Complex.norm_I, one_mul, Complex.norm_real]
      exact Real.abs_cos_le_one x
    have hh : ‖(h : ℂ)‖ = h := by rw [Complex.norm_real, Real.norm_eq_abs, abs_of_nonneg h0]
    have h2 : ‖(h : ℂ) / 2‖ = h / 2 := by rw [norm_div, hh]; norm_num
    have h3 : ‖(1 : ℂ) + h * (Complex.I * Real.cos 0)‖ ≤ 2 := by
      refine (norm_add_le _ _).trans ?_
      rw [norm_mul, hh, norm_one]
      nlinarith [hI 0, norm_nonneg (Complex.I * (Real.cos 0 : ℂ))]
    unfold gain
    refine (norm_add_le _ _).trans ?_
    rw [norm_one, norm_mul, h2]
    have h4 : ‖Complex.I * (Real.cos 0 : ℂ) + Complex.I * Real.cos (0 + h) * (1 + h * (Complex.I * Real.cos 0))‖ ≤ 3 := by
      refine (norm_add_le _ _).trans ?_
      rw [norm_mul (Complex.I * (Real.cos (0 + h) : ℂ))]
      nlinarith [hI 0, hI (0 + h), norm_nonneg (Complex.I * (Real.cos (0 + h) : ℂ)), norm_nonneg ((1 : ℂ) + h * (Complex.I * Real.cos 0))]
    nlinarith [norm_nonneg (Complex.I * (Real.cos 0 : ℂ) + Complex.I * Real.cos (0 + h) * (1 + h * (Complex.I * Real.cos 0)))]

/-- C112 refuted for drivers that depend on time: the clock advances before the step, so the drivers are sampled one step late
and runs with Heun's solver, a solver of second order, do not converge with order two; here in an alternating field. -/
theorem C112_heun_refuted : ∃ (j : LLGBJunction ℝ) (m : Nat → ℝ → CVec ℝ) (T : ℝ), LlgbTrack j m T ∧
    ¬ LlgbConverges j .HEUN m T 2 := by
  refine ⟨waveJ, fun _ => wave, Real.pi, wave_track, ?_⟩
  rintro ⟨C', q', hq', hA, -⟩
  obtain ⟨C, q, hq, hB⟩ := llgb_global Real.pi_pos.le wave_track .heun (p := 2) (by norm_num) le_rfl
  have htime : waveJ.time = 0 := by simp [waveJ, mk']
  set D := 6 * (|C| + |C'|) + 1 with hD
  have hD0 : 0 < D := by positivity
  obtain ⟨n, hn⟩ := exists_nat_gt (Real.pi / min (min q q') (min 1 (1 / D)))
  have hδ : 0 < min (min q q') (min 1 (1 / D)) := lt_min (lt_min hq hq') (lt_min one_pos (by positivity))
  have hn0 : (0 : ℝ) < n := lt_of_le_of_lt (by positivity) hn
  set h := Real.pi / n with hh
  have h0 : 0 < h := div_pos Real.pi_pos hn0
  have hlt : h < min (min q q') (min 1 (1 / D)) := by
    rw [div_lt_iff₀ hδ] at hn
    rw [hh, div_lt_iff₀ hn0]; linarith
  have hnh : n * h = Real.pi := by rw [hh]; field_simp
  have l1 : h ≤ q := hlt.le.trans ((min_le_left _ _).trans (min_le_left _ _))
  have l2 : h ≤ q' := hlt.le.trans ((min_le_left _ _).trans (min_le_right _ _))
  have l3 : h ≤ 1 := hlt.le.trans ((min_le_right _ _).trans (min_le_left _ _))
  have l4 : h * D < 1 := by
    have := lt_of_lt_of_le hlt ((min_le_right _ _).trans (min_le_right _ _))
    rwa [lt_div_iff₀ hD0] at this
  set P := ∏ i ∈ Finset.range n, gain h (0 + h + i * h) with hP
  set Q := ∏ i ∈ Finset.range n, gain h (0 + i * h) with hQ
  have hw : wave Real.pi = plane 1 := by ext <;> simp [wave, plane]
  -- on time
  have b1 : ‖Q - 1‖ ≤ C * h ^ 2 := by
    have := hB n h h0.le l1 hnh.le 0 (by rw [htime, sub_zero, abs_zero]; positivity) ⟨0, by simp [waveJ, mk']⟩
    have e : (Order.Llgb.iterate .heun (fun i : Fin waveJ.layers.length => waveJ.layers[i]) h 0
        (fun i => toV waveJ.layers[i].mag) n).2 ⟨0, by simp [waveJ, mk']⟩ = toV (plane Q) := wave_iterate' h 0 n
    rw [e, htime, zero_add, hnh] at this
    rw [← plane_norm, ← hw]
    exact this
  -- one step late
  have b2 : ‖P - 1‖ ≤ C' * h ^ 2 := by
    obtain ⟨k, hk, hc⟩ := loop_core .heun h 1 one_ne_zero n 0 waveJ
    have hN := hA n h h0 l2 hnh.le 1 k ⟨.heun, by simp [getSolver], hk⟩
    have hH := Order.Llgb.evolve_iterate .heun (fun i : Fin waveJ.layers.length => waveJ.layers[i]) h 0
      (fun i => toV waveJ.layers[i].mag) n 0 waveJ (holds_self waveJ.layers) (by rw [htime]; simp)
    rw [Nat.zero_add, ← hc.1] at hH
    obtain ⟨l, hl, -, hm⟩ := hH.2 ⟨0, by simp [waveJ, mk']⟩
    have := hN 0 l hl
    have e : (Order.Llgb.iterate .heun (fun i : Fin waveJ.layers.length => waveJ.layers[i]) h (0 + h)
        (fun i => toV waveJ.layers[i].mag) n).2 ⟨0, by simp [waveJ, mk']⟩ = toV (plane P) := wave_iterate' h (0 + h) n
    rw [hm, e, ofV_toV, htime, zero_add, hnh, ← norm_toV, toV_sub] at this
    rw [← plane_norm, ← hw]
    exact this
  obtain ⟨g1, g2⟩ := gain_change h0.le l3
  have shift : P * gain h 0 = Q * gain h Real.pi := by
    have := gain_shift h 0 n
    rwa [zero_add (n * h), hnh] at this
  have eq : ‖P - Q‖ * ‖gain h 0‖ = ‖Q‖ * ‖gain h Real.pi - gain h 0‖ := by
    rw [← norm_mul, ← norm_mul]
    congr 1
    linear_combination shift
  have hC1 : C * h ^ 2 ≤ |C| * h := by
    have : C * h ^ 2 ≤ |C| * h ^ 2 := mul_le_mul_of_nonneg_right (le_abs_self C) (by positivity)
    have : |C| * h ^ 2 ≤ |C| * h := mul_le_mul_of_nonneg_left (by nlinarith) (abs_nonneg C)
    linarith
  have hpos := abs_nonneg C
  have hpos' := abs_nonneg C'
  have hq2 : 1 / 2 ≤ ‖Q‖ := by
    have t1 : ‖(1 : ℂ)‖ ≤ ‖Q‖ + ‖Q - 1‖ := by
      have := norm_sub_le Q (Q - 1)
      simpa using this
    rw [norm_one] at t1
    nlinarith
  have hPQ : ‖P - Q‖ ≤ (C + C') * h ^ 2 := by
    have : P - Q = (P - 1) - (Q - 1) := by ring
    rw [this]
    refine (norm_sub_le _ _).trans ?_
    linarith
  have f1 : 1 / 2 * h ≤ ‖Q‖ * ‖gain h Real.pi - gain h 0‖ := mul_le_mul hq2 g1 h0.le (norm_nonneg _)
  have f2 : ‖P - Q‖ * ‖gain h 0‖ ≤ (C + C') * h ^ 2 * 3 :=
    mul_le_mul hPQ g2 (norm_nonneg _) ((norm_nonneg _).trans hPQ)
  have f3 : h * 1 ≤ h * (6 * (C + C') * h) := by nlinarith
  have f4 : 1 ≤ 6 * (C + C') * h := le_of_mul_le_mul_left f3 h0
  have f5 : 6 * (C + C') * h ≤ 6 * (|C| + |C'|) * h :=
    mul_le_mul_of_nonneg_right (by linarith [le_abs_self C, le_abs_self C']) h0.le
  nlinarith

end LLGBJunction
