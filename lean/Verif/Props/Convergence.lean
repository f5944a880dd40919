import Verif.Lemmas.Exist
import Verif.Props.Logs
import Verif.Props.Uncoupled

/-!
C111: runs converge to the solution of the Landau-Lifshitz-Gilbert equation when the time step is refined.
-/

set_option linter.unusedSectionVars false
set_option linter.unusedSimpArgs false

namespace Junction
open Spec Order

/-- helper: all states on the way stay near the solution -/
theorem track_steps {j : Junction ℝ} {m : Nat → ℝ → CVec ℝ} {T : ℝ} (hT : 0 ≤ T) (h : Track j m T) (r : Runner)
    (h1 : r = .single → j.layers.length = 1) : ∃ C q : ℝ, 0 < q ∧ ∀ (n : ℕ) (dt : ℝ), 0 ≤ dt → dt ≤ q → n * dt ≤ T →
      ∃ k, evolve r dt 0 n j = .ok () k ∧ Near k m (n * dt) (C * dt ^ order r) := by
  obtain ⟨lo, hi, hlo, hhi, hm⟩ := h.solves
  set N := j.layers.length with hN
  set L : Fin N → Layer ℝ := fun i => j.layers[i] with hL
  have mem : ∀ i : Fin N, L i ∈ j.layers := fun i => List.getElem_mem i.2
  have get : ∀ i : Fin N, j.layers[i.1]? = some (L i) := fun i => List.getElem?_eq_getElem i.2
  have hq : ∀ i, Quiet (L i) := by
    intro i
    have := (quiet_iff (L i)).1 (h.quiet _ (mem i))
    refine ⟨?_, this.1, by simpa using this.2⟩
    have := h.volume _ (mem i)
    unfold Layer.Guard
    simpa using this
  have hd : ∀ t ∈ Set.Ioo lo hi, HasDerivAt (joint N m) (rhs L (joint N m t)) t := fun t ht => joint_deriv hm t ht
  have hF : ∀ t ∈ Set.Icc 0 T, ContDiffAt ℝ 4 (rhs L) (joint N m t) := by
    intro t ht
    refine rhs_smooth L _ (fun i => h.smooth _ (mem i) t ht) fun i => ?_
    rw [low_joint, up_joint]
    exact h.noPole i.1 _ (get i) t ht
  obtain ⟨hR, hFl⟩ := trajectory hlo hhi hd hF
  have hunit : ∀ t ∈ Set.Icc 0 T, joint N m t ∈ Order.Unit N := by
    intro t ht i
    show ‖toV (m i.1 t)‖ = 1
    rw [norm_toV, length_const (l := L i) (c := m i.1) (b := lower m i.1) (a := upper N m i.1) (lo := lo) (hi := hi)
      ⟨hlo, lt_of_le_of_lt hT hhi⟩ (fun s hs => hm i.1 (L i) (get i) s hs) t ⟨by linarith [ht.1], by linarith [ht.2]⟩,
      h.start i.1 _ (get i)]
    exact h.unit _ (mem i)
  have hp : 1 ≤ order r := by cases r <;> decide
  obtain ⟨C, q, hq0, hG⟩ := global hT hp (scheme_local r h1 hR hFl) (scheme_sl r hR) hunit
    (fun z hz u hu w hw => renormalise_spec z hz u hu w hw)
  refine ⟨C, q, hq0, fun n dt h0 hdt hn => ?_⟩
  set M : Fin N → V := fun i => toV (L i).mag with hM
  have z0 : iterate r L dt M 0 = joint N m 0 := by
    refine Prod.ext rfl (funext fun i => ?_)
    show toV (L i).mag = toV (m i.1 0)
    rw [h.start i.1 _ (get i)]
  have key := hG n dt h0 hdt hn (iterate r L dt M) z0 (fun k _ => rfl)
  obtain ⟨k, hk, hc⟩ := evolve_iterate r L hq h1 dt M n 0 j (carries_self j.layers)
  refine ⟨k, hk, ?_⟩
  intro i l hl
  rw [Nat.zero_add] at hc
  obtain ⟨hi', c, rfl⟩ := hc.get hl
  show (ofV ((iterate r L dt M n).2 ⟨i, hi'⟩) - m i (n * dt)).length ≤ _
  rw [← norm_toV, toV_sub, toV_ofV]
  refine le_trans ?_ key
  exact (norm_le_pi_norm ((iterate r L dt M n).2 - (joint N m (n * dt)).2) ⟨i, hi'⟩).trans
    (norm_snd_le (iterate r L dt M n - joint N m (n * dt)))

/-- helper: the run is such a loop -/
theorem run_loop {j k : Junction ℝ} {mode : SolverMode} {dt total wf : ℝ} {en : Bool} (hdt : 0 < dt) (h0 : 0 ≤ total)
    (hk : j.runSimulation total dt wf en mode = .ok () k) : ∃ we, LoopEnds j mode ⌊total / dt⌋₊ dt we en k := by
  obtain ⟨N, W, rr, mm, j1, -, hN, -, hg, hl⟩ := Sim.run_inv hk
  have hNf : N = ⌊total / dt⌋₊ := by
    have hb : total / dt < 4294967296 := by
      by_contra hb
      have : (Scalar.toUInt (total / dt) : Option Nat) = none := if_neg fun q => hb q.2
      rw [this] at hN; cases hN
    rw [toUInt_floor _ (div_nonneg h0 hdt.le) hb] at hN
    exact (Option.some.inj hN).symm
  rw [← hNf]
  exact ⟨W, (rr, mm), j1, hg, hl⟩

/-- helper -/
theorem converges_of {j : Junction ℝ} {m : Nat → ℝ → CVec ℝ} {T : ℝ} {mode : SolverMode} {p : Nat} {C r : ℝ} (hr : 0 < r)
    (h : ∀ (n : Nat) (dt : ℝ), 0 < dt → dt ≤ r → n * dt ≤ T → ∀ (we : Nat) (en : Bool) (k : Junction ℝ),
      LoopEnds j mode n dt we en k → Near k m (n * dt) (C * dt ^ p)) : Converges j mode m T p := by
  refine ⟨C, r, hr, h, fun dt total wf hdt hdr h0 hle en k hk => ?_⟩
  obtain ⟨we, hw⟩ := run_loop hdt h0 hk
  refine h _ dt hdt hdr ?_ we en k hw
  have := Nat.floor_le (div_nonneg h0 hdt.le)
  rw [le_div_iff₀ hdt] at this
  linarith

/-- helper -/
theorem track_run {j : Junction ℝ} {m : Nat → ℝ → CVec ℝ} {T : ℝ} (h : Track j m T) (mode : SolverMode) :
    Converges j mode m T (order (pickRunner j.layers.length mode)) := by
  by_cases hT : 0 ≤ T
  swap
  · refine converges_of (C := 0) one_pos fun n dt hdt _ hn => absurd ?_ hT
    exact le_trans (by positivity) hn
  obtain ⟨C, r, hr, hs⟩ := track_steps hT h (pickRunner j.layers.length mode) pickRunner_single
  refine converges_of (C := C) hr ?_
  rintro n dt hdt hdr hn we en k ⟨s, j1, hg, hl⟩
  rw [solver_quiet j h.quiet] at hg
  simp only [Out.ok, Out.mk.injEq, Except.ok.injEq] at hg
  obtain ⟨rfl, rfl⟩ := hg
  obtain ⟨e, he, hle'⟩ := runLoop_evolve _ dt we en hl rfl
  obtain ⟨k2, hk2, hn⟩ := hs n dt hdt.le hdr hn
  rw [he] at hk2
  simp only [Out.ok, Out.mk.injEq, true_and] at hk2
  subst hk2
  intro i l hi
  exact hn i l (by rw [← hle']; exact hi)

/-- C111. Within the interval the loop ends (its result is not an error), so that the bounds speak of actual states. -/
theorem C111_ends (j : Junction ℝ) (m : Nat → ℝ → CVec ℝ) (T : ℝ) (hT : 0 ≤ T) (h : Track j m T) (mode : SolverMode)
    (hm : j.mrMode ≠ .STRIP) : ∃ r : ℝ, 0 < r ∧ ∀ (n : Nat) (dt : ℝ), 0 < dt → dt ≤ r → n * dt ≤ T →
      ∀ (we : Nat) (en : Bool), we ≠ 0 → ∃ k, LoopEnds j mode n dt we en k := by
  obtain ⟨C, r, hr, hs⟩ := track_steps hT h (pickRunner j.layers.length mode) pickRunner_single
  refine ⟨r, hr, fun n dt hdt hdr hn we en hw => ?_⟩
  obtain ⟨e, he, -⟩ := hs n dt hdt.le hdr hn
  obtain ⟨k, hk, -⟩ := evolve_runLoop _ dt we en he (j := j) rfl hw (fun q => absurd q hm)
  exact ⟨k, _, j, solver_quiet j h.quiet mode n, hk⟩

/-- C111. A single-layer run with the Runge-Kutta solver (or with the Dormand-Prince mode, which selects the same solver)
converges with order four. (For several layers, where the full statement claims the same, see `C111_coupled_refuted` and
`C111_all`.) -/
theorem C111_rk4_partial (j : Junction ℝ) (m : Nat → ℝ → CVec ℝ) (T : ℝ) (h : Track j m T) (h1 : j.layers.length = 1)
    (mode : SolverMode) (hm : mode = .RK4 ∨ mode = .DORMAND_PRICE) : Converges j mode m T 4 := by
  have := track_run h mode
  rw [h1] at this
  rcases hm with rfl | rfl <;> exact this

/-- C111. Runs with Heun's solver converge with order two, whatever the number of layers. -/
theorem C111_heun (j : Junction ℝ) (m : Nat → ℝ → CVec ℝ) (T : ℝ) (h : Track j m T) : Converges j .HEUN m T 2 :=
  track_run h .HEUN

/-- C111. Runs with the Euler-Heun solver converge with order one. -/
theorem C111_eulerHeun (j : Junction ℝ) (m : Nat → ℝ → CVec ℝ) (T : ℝ) (h : Track j m T) : Converges j .EULER_HEUN m T 1 :=
  track_run h .EULER_HEUN

/-- C111. Every run converges, whatever the solver and the number of layers. -/
theorem C111_all (j : Junction ℝ) (m : Nat → ℝ → CVec ℝ) (T : ℝ) (h : Track j m T) (mode : SolverMode) :
    Converges j mode m T 1 := by
  obtain ⟨C, r, hr, hc, -⟩ := track_run h mode
  refine converges_of (C := |C|) (lt_min hr one_pos) fun n dt hdt hdr hn we en k hk i l hi => ?_
  refine (hc n dt hdt (hdr.trans (min_le_left _ _)) hn we en k hk i l hi).trans ?_
  have hp : 1 ≤ order (pickRunner j.layers.length mode) := by generalize pickRunner _ _ = r; cases r <;> decide
  exact mul_le_mul (le_abs_self C) (pow_le_pow_of_le_one hdt.le (hdr.trans (min_le_right _ _)) hp) (by positivity) (abs_nonneg C)

/-! ### The solution exists -/

/-- helper -/
theorem erf_smooth : ContDiff ℝ 4 (fun x : ℝ => (Scalar.erf x : ℝ)) := by
  have hd : ∀ x : ℝ, HasDerivAt (fun x : ℝ => (Scalar.erf x : ℝ)) (2 / Real.sqrt Real.pi * Real.exp (-x ^ 2)) x := by
    intro x
    have hc : Continuous fun t : ℝ => Real.exp (-t ^ 2) := by fun_prop
    exact (hc.integral_hasStrictDerivAt 0 x).hasDerivAt.const_mul _
  have he : deriv (fun x : ℝ => (Scalar.erf x : ℝ)) = fun x => 2 / Real.sqrt Real.pi * Real.exp (-x ^ 2) :=
    funext fun x => (hd x).deriv
  rw [show (4 : WithTop ℕ∞) = 3 + 1 by norm_num, contDiff_succ_iff_deriv]
  refine ⟨fun x => (hd x).differentiableAt, by simp, ?_⟩
  rw [he]
  fun_prop

/-- helper -/
theorem smooth_value {d : ScalarDriver ℝ} (h : SmoothKind d) (t : ℝ) : ContDiffAt ℝ 4 d.value t := by
  suffices ContDiff ℝ 4 d.value from this.contDiffAt
  rcases h with h | h | h | h
  · have : d.value = fun _ => d.constantValue := by funext s; simp [ScalarDriver.value, h]
    rw [this]; exact contDiff_const
  · have : d.value = fun s => d.constantValue + d.amplitude * Real.sin (2 * Real.pi * s * d.frequency + d.phase) := by
      funext s; simp [ScalarDriver.value, h]
    rw [this]; fun_prop
  · have : d.value = fun s => d.constantValue + d.amplitude * Real.exp (-(s - d.timeStart) ^ 2 / (2 * d.edgeTime ^ 2)) := by
      funext s; simp [ScalarDriver.value, h]
    rw [this]; fun_prop
  · have : d.value = fun s => d.constantValue + 1 / 2 * d.amplitude *
        (1 + (Scalar.erf ((s - d.timeStart) / (Real.sqrt 2 * d.edgeTime)) : ℝ)) := by
      funext s; simp [ScalarDriver.value, h]; norm_num
    rw [this]
    exact contDiff_const.add (contDiff_const.mul (contDiff_const.add (erf_smooth.comp (by fun_prop))))

/-- helper -/
theorem smooth_axes {d : AxialDriver ℝ} (h : SmoothAxes d) (t : ℝ) : SmoothVec d.value t :=
  ⟨smooth_value h.1 t, smooth_value h.2.1 t, smooth_value h.2.2 t⟩

/-- C111. Constant, sinusoidal and Gaussian drivers are smooth enough for the theorems above, at all times. -/
theorem C111_drivers (l : Layer ℝ) (h : SmoothDrivers l) (t : ℝ) : Smooth l t :=
  ⟨smooth_value h.iecTop t, smooth_value h.iecBottom t, smooth_value h.quadTop t, smooth_value h.quadBottom t,
    smooth_value h.current t, smooth_value h.anisotropy t, smooth_value h.fieldLike t, smooth_value h.dampingLike t,
    smooth_axes h.idmiTop t, smooth_axes h.idmiBottom t, smooth_axes h.reserved t, smooth_axes h.external t,
    smooth_axes h.oersted t, smooth_axes h.dmi t⟩

/-- helper -/
theorem dot_le_one {u v : CVec ℝ} (hu : u.length ≤ 1) (hv : v.length ≤ 1) : |u.dot v| ≤ 1 := by
  have h1 : u.dot v ^ 2 ≤ u.normSq * v.normSq := by
    simp only [CVec.dot, CVec.normSq]
    nlinarith [sq_nonneg (u.x * v.y - u.y * v.x), sq_nonneg (u.y * v.z - u.z * v.y), sq_nonneg (u.z * v.x - u.x * v.z)]
  have hs : ∀ w : CVec ℝ, w.length ≤ 1 → w.normSq ≤ 1 := by
    intro w hw
    rw [CVec.length_eq, Real.sqrt_le_one] at hw
    exact hw
  have h2 : u.dot v ^ 2 ≤ 1 := h1.trans (mul_le_one₀ (hs u hu) v.normSq_nonneg (hs v hv))
  exact abs_le_one_iff_mul_self_le_one.2 (by nlinarith)

/-- C111. The spin-transfer efficiency has no pole when there is no spin transfer, when a Slonczewski parameter other than
zero is used, or, in the alternative form, when the parameter is below one in magnitude; the fixed polarisation must not be
longer than one. -/
theorem C111_poleless (l : Layer ℝ) (h : l.includeSTT = true → l.referenceLayer.length ≤ 1 ∧
    (if l.alternativeSTTSet = true then |l.slonczewski| < 1 else l.slonczewski ≠ 0)) : Poleless l := by
  intro m b a hm hb ha hs
  obtain ⟨hr, hl⟩ := h hs
  have hp : (Layer.polariser l b a).length ≤ 1 := by
    unfold Layer.polariser
    split
    · exact hr
    · split
      · exact ha
      · split
        · exact hb
        · simp [CVec.length_eq, CVec.normSq]
  have hd := dot_le_one hm hp
  set x := m.dot (Layer.polariser l b a)
  unfold sttDenominator
  obtain ⟨d1, d2⟩ := abs_le.1 hd
  split at hl
  · rename_i h1
    rw [if_pos h1]
    have : |l.slonczewski * x| < 1 := by
      rw [abs_mul]
      exact lt_of_le_of_lt (mul_le_of_le_one_right (abs_nonneg _) hd) hl
    have := (abs_lt.1 this).1
    intro e
    linarith
  · rename_i h1
    rw [if_neg h1]
    have : 0 < l.slonczewski ^ 2 := by positivity
    show l.slonczewski ^ 2 + 1 + (l.slonczewski ^ 2 - 1) * x ≠ 0
    intro e
    have h2 : 0 ≤ l.slonczewski ^ 2 * (1 + x) := mul_nonneg this.le (by linarith)
    have h3 : x = 1 := by nlinarith
    rw [h3] at e
    linarith

/-- C111. For layers with smooth drivers, meaningful volumes, unit magnetisations, no noise and no pole in the spin-transfer
efficiency the equations of motion have a solution on every time interval; the convergence theorems apply to it. -/
theorem C111_exists (j : Junction ℝ) (T : ℝ) (hT : 0 ≤ T) (hu : ∀ l ∈ j.layers, l.mag.length = 1)
    (hv : ∀ l ∈ j.layers, l.Ms * l.thickness ≠ 0) (hq : ∀ l ∈ j.layers, ¬ Noisy l) (hs : ∀ l ∈ j.layers, SmoothDrivers l)
    (hp : ∀ l ∈ j.layers, Poleless l) : ∃ m, Track j m T :=
  track_exists j T hT hu hv hq (fun l hl t => C111_drivers l (hs l hl) t) hp

/-- helper -/
theorem evolve_length {r : Runner} {dt : ℝ} {n i : Nat} {j k : Junction ℝ} (h : evolve r dt i n j = .ok () k) :
    k.layers.length = j.layers.length := by
  induction n generalizing i j with
  | zero =>
    simp only [evolve, Out.ok, Out.mk.injEq, true_and] at h
    rw [h]
  | succ n ih =>
    unfold evolve at h
    obtain ⟨-, h2⟩ := bind_unit_ok h
    exact (ih h2).trans (runStep_length j r _ dt)

/-- C111. The solution is unique. -/
theorem C111_unique (j : Junction ℝ) (m m' : Nat → ℝ → CVec ℝ) (T : ℝ) (h : Track j m T) (h' : Track j m' T) (i : Nat)
    (hi : i < j.layers.length) (t : ℝ) (ht : t ∈ Set.Icc 0 T) : m i t = m' i t := by
  have hT : 0 ≤ T := ht.1.trans ht.2
  obtain ⟨C, q, hq, hs⟩ := track_steps hT h .eulerHeun (by intro e; cases e)
  obtain ⟨C', q', hq', hs'⟩ := track_steps hT h' .eulerHeun (by intro e; cases e)
  have key : ∀ᶠ n : ℕ in Filter.atTop, (m i t - m' i t).length ≤ (|C| + |C'|) * t * (1 / ((n : ℝ) + 1)) := by
    have hlim : Filter.Tendsto (fun n : ℕ => t * (1 / ((n : ℝ) + 1))) Filter.atTop (nhds (t * 0)) :=
      tendsto_one_div_add_atTop_nhds_zero_nat.const_mul t
    rw [mul_zero] at hlim
    filter_upwards [hlim.eventually (gt_mem_nhds (lt_min hq hq'))] with n hn
    have hn1 : (0 : ℝ) < (n : ℝ) + 1 := by positivity
    set dt := t * (1 / ((n : ℝ) + 1)) with hdt
    have h0 : 0 ≤ dt := mul_nonneg ht.1 (by positivity)
    have e1 : ((n + 1 : ℕ) : ℝ) * dt = t := by rw [hdt]; push_cast; field_simp
    obtain ⟨k, hk, hn1'⟩ := hs (n + 1) dt h0 (hn.le.trans (min_le_left _ _)) (by rw [e1]; exact ht.2)
    obtain ⟨k', hk', hn2⟩ := hs' (n + 1) dt h0 (hn.le.trans (min_le_right _ _)) (by rw [e1]; exact ht.2)
    rw [hk] at hk'
    simp only [Out.ok, Out.mk.injEq, true_and] at hk'
    subst hk'
    rw [e1] at hn1' hn2
    have hlen : i < k.layers.length := by
      have : k.layers.length = j.layers.length := evolve_length hk
      omega
    have a := hn1' i _ (List.getElem?_eq_getElem hlen)
    have b := hn2 i _ (List.getElem?_eq_getElem hlen)
    set v := k.layers[i].mag
    simp only [order, pow_one] at a b
    have tri : (m i t - m' i t).length ≤ (v - m i t).length + (v - m' i t).length := by
      rw [← norm_toV, ← norm_toV, ← norm_toV, toV_sub, toV_sub, toV_sub]
      have : toV (m i t) - toV (m' i t) = (toV v - toV (m' i t)) - (toV v - toV (m i t)) := by abel
      rw [this]
      linarith [norm_sub_le (toV v - toV (m' i t)) (toV v - toV (m i t))]
    have c1 : C * dt ≤ |C| * dt := mul_le_mul_of_nonneg_right (le_abs_self C) h0
    have c2 : C' * dt ≤ |C'| * dt := mul_le_mul_of_nonneg_right (le_abs_self C') h0
    rw [mul_assoc, ← hdt]
    linarith
  have hz : (m i t - m' i t).length ≤ 0 := by
    have hlim : Filter.Tendsto (fun n : ℕ => (|C| + |C'|) * t * (1 / ((n : ℝ) + 1))) Filter.atTop (nhds ((|C| + |C'|) * t * 0)) :=
      tendsto_one_div_add_atTop_nhds_zero_nat.const_mul _
    rw [mul_zero] at hlim
    exact ge_of_tendsto hlim key
  rw [← norm_toV, norm_le_zero_iff, toV_sub, sub_eq_zero] at hz
  have := congrArg ofV hz
  simpa using this

end Junction
