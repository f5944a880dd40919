import Verif.Props.Runs
import Verif.Props.Drivers

/-! # C29: running twice and running once for longer -/

set_option linter.unusedSectionVars false

namespace Junction
open Spec Layer
variable {T : Type} [Scalar T]

/-- helper relation: the same noise-free layer with time-independent drivers, up to the recorded fields -/
def Steady (l l' : Layer T) : Prop := (∃ c, l' = l.setCache c) ∧ TimeIndependent l ∧ ¬ Noisy l

/-- helper -/
theorem Steady.refl {l : Layer T} (h : TimeIndependent l) (hq : ¬ Noisy l) : Steady l l := ⟨⟨l.cache, rfl⟩, h, hq⟩

/-- helper: steps of steady layers do not depend on the time -/
theorem steadySim : Sim T (Steady : Layer T → Layer T → Prop) Eq (fun _ _ => True) where
  mag := by rintro l _ ⟨⟨c, rfl⟩, -, -⟩; rfl
  setMag := by rintro l _ m _ ⟨⟨c, rfl⟩, ht, hq⟩ rfl; exact ⟨⟨c, rfl⟩, { ht with }, hq⟩
  llg := by
    rintro l _ t t' m _ b _ a _ ⟨⟨c, rfl⟩, ht, hq⟩ - rfl rfl rfl
    by_cases hg : l.Guard
    · obtain ⟨c1, h1⟩ := l.llg_ok t m b a hg
      obtain ⟨c2, h2⟩ := (l.setCache c).llg_ok t' m b a hg
      rw [h1, h2]
      exact .ok (by rw [llgV_cache]; exact ht.llgV t t' m b a) ⟨⟨c2, rfl⟩, { ht with }, hq⟩
    · obtain ⟨c1, h1⟩ := l.llg_err t m b a hg
      obtain ⟨c2, h2⟩ := (l.setCache c).llg_err t' m b a hg
      rw [h1, h2]
      exact .fail ⟨⟨c2, rfl⟩, { ht with }, hq⟩
  langevin := by
    rintro l _ t t' ⟨⟨c, rfl⟩, ht, hq⟩ -
    obtain ⟨h1, h2⟩ := (quiet_iff l).1 hq
    unfold langevinVector
    rw [if_pos (by simp [h1]), if_pos (by simp [setCache, h1])]
    exact .ok rfl ⟨⟨c, rfl⟩, ht, hq⟩
  oneF := by
    rintro l _ ⟨⟨c, rfl⟩, ht, hq⟩
    obtain ⟨h1, h2⟩ := (quiet_iff l).1 hq
    unfold oneFVector
    rw [if_pos h2, if_pos (show Scalar.eqb (l.setCache c).noiseParams.scaleNoise 0 = true from h2)]
    exact .ok rfl ⟨⟨c, rfl⟩, ht, hq⟩
  stoch := by rintro l _ m _ w _ ⟨⟨c, rfl⟩, -, -⟩ rfl rfl; rfl
  zero := rfl
  add h h' := by rw [h, h']
  mul s h := by rw [h]
  lmul s h := by rw [h]
  div6 s h := by rw [h]
  nan h := by rw [h]
  time _ _ := trivial

/-- helper -/
theorem steady_refl (j : Junction T) (ht : ∀ l ∈ j.layers, TimeIndependent l) (hq : ∀ l ∈ j.layers, ¬ Noisy l) :
    List.Forall₂ Steady j.layers j.layers := by
  refine List.Forall₂.of_getElem? rfl ?_
  intro i a b ha hb
  rw [ha] at hb; cases hb
  exact .refl (ht a (List.mem_of_getElem? ha)) (hq a (List.mem_of_getElem? ha))

/-- helper -/
theorem Same.timeIndependent {l l' : Layer T} (h : Same l l') (ht : TimeIndependent l) : TimeIndependent l' := by
  obtain ⟨_, _, _, _, _, rfl⟩ := h
  exact { ht with }

/-- helper -/
theorem steady_keep {j k : Junction T} (hq : ∀ l ∈ j.layers, ¬ Noisy l) (ht : ∀ l ∈ j.layers, TimeIndependent l)
    (hs : List.Forall₂ Same j.layers k.layers) :
    (∀ l ∈ k.layers, ¬ Noisy l) ∧ (∀ l ∈ k.layers, TimeIndependent l) :=
  ⟨sames_all (fun _ _ h hn hn' => hn ((Same_noisy h).1 hn')) hs hq, sames_all (fun _ _ h => Same.timeIndependent h) hs ht⟩

/-- helper -/
theorem steady_mags {ls ls' : List (Layer T)} (h : List.Forall₂ Steady ls ls') : ls'.map Layer.mag = ls.map Layer.mag := by
  have := steadySim.mags h
  exact (forall₂_eq.1 this).symm

/-- helper: a quiet run is the solver loop -/
theorem run_quiet {j : Junction T} (hq : ∀ l ∈ j.layers, ¬ Noisy l) {total dt wf : T} {en : Bool} {mode : SolverMode} {N W : Nat}
    (hw : Scalar.ltb wf dt = false) (hN : Scalar.toUInt (total / dt) = some N) (hW : Scalar.toUInt (wf / dt) = some W) :
    j.runSimulation total dt wf en mode = runLoop (pickRunner j.layers.length mode) dt W en 0 N j := by
  unfold runSimulation
  rw [if_neg (by simp [hw]), hN, hW]
  dsimp only
  rw [solver_quiet j hq]
  rfl

/-- C29: with time-independent drivers and no noise, a run of `n` steps followed by a run of `m` steps ends in the
magnetisations of one run of `n + m` steps. -/
theorem C29_split {j k1 k2 : Junction T} (hr : Reachable j) (hq : ∀ l ∈ j.layers, ¬ Noisy l)
    (ht : ∀ l ∈ j.layers, TimeIndependent l) {t1 t2 t3 dt wf wf' wf3 : T} {en en' en3 : Bool} {mode : SolverMode} {n m W : Nat}
    (hn : Scalar.toUInt (t1 / dt) = some n) (hm : Scalar.toUInt (t2 / dt) = some m)
    (hnm : Scalar.toUInt (t3 / dt) = some (n + m)) (hw : Scalar.ltb wf3 dt = false) (hW : Scalar.toUInt (wf3 / dt) = some W)
    (hW0 : W ≠ 0) (h1 : j.runSimulation t1 dt wf en mode = .ok () k1) (h2 : k1.runSimulation t2 dt wf' en' mode = .ok () k2) :
    ∃ k3, j.runSimulation t3 dt wf3 en3 mode = .ok () k3 ∧ k3.layers.map Layer.mag = k2.layers.map Layer.mag := by
  obtain ⟨hmr, -⟩ := Reachable_inv hr
  have hs1 : List.Forall₂ Same j.layers k1.layers := by
    have := runSimulation_same j t1 dt wf en mode; rw [h1] at this; exact this
  obtain ⟨hq1, ht1⟩ := steady_keep hq ht hs1
  obtain ⟨_, _, _, _, _, w1, n1, W1, -, -⟩ := Sim.run_inv h1
  obtain ⟨_, _, _, _, _, w2, n2, W2, -, -⟩ := Sim.run_inv h2
  rw [run_quiet hq w1 hn W1] at h1
  rw [run_quiet hq1 w2 hm W2, ← hs1.length_eq] at h2
  rw [run_quiet hq hw hnm hW]
  obtain ⟨e1, he1, hl1⟩ := runLoop_evolve _ dt _ en h1 rfl
  obtain ⟨e2, he2, hl2⟩ := runLoop_evolve _ dt _ en' h2 hl1
  have hqe : ∀ l ∈ e1.layers, ¬ Noisy l := by rw [← hl1]; exact hq1
  have hte : ∀ l ∈ e1.layers, TimeIndependent l := by rw [← hl1]; exact ht1
  obtain ⟨_, e3, he3, -, hee⟩ := (steadySim.evolve (pickRunner j.layers.length mode) dt (i := 0) (i' := 0 + n)
    (fun _ => trivial) m (steady_refl e1 hte hqe)).ok_left he2
  have hall : evolve (pickRunner j.layers.length mode) dt 0 (n + m) j = .ok () e3 := by
    rw [evolve_add, he1]; exact he3
  obtain ⟨k3, hk3, hl3⟩ := evolve_runLoop _ dt W en3 hall rfl hW0 hmr
  exact ⟨k3, hk3, by rw [← hl3, hl2, steady_mags hee]⟩

/-- C29, conversely: when the long run succeeds, so do the two short ones, with the same final magnetisations. -/
theorem C29_join {j k3 : Junction T} (hr : Reachable j) (hq : ∀ l ∈ j.layers, ¬ Noisy l)
    (ht : ∀ l ∈ j.layers, TimeIndependent l) {t1 t2 t3 dt wf wf3 : T} {en en' en3 : Bool} {mode : SolverMode} {n m W : Nat}
    (hn : Scalar.toUInt (t1 / dt) = some n) (hm : Scalar.toUInt (t2 / dt) = some m)
    (hnm : Scalar.toUInt (t3 / dt) = some (n + m)) (hw : Scalar.ltb wf dt = false) (hW : Scalar.toUInt (wf / dt) = some W)
    (hW0 : W ≠ 0) (h3 : j.runSimulation t3 dt wf3 en3 mode = .ok () k3) :
    ∃ k1 k2, j.runSimulation t1 dt wf en mode = .ok () k1 ∧ k1.runSimulation t2 dt wf en' mode = .ok () k2 ∧
      k2.layers.map Layer.mag = k3.layers.map Layer.mag := by
  obtain ⟨hmr, -⟩ := Reachable_inv hr
  obtain ⟨_, _, _, _, _, w3, n3, W3, -, -⟩ := Sim.run_inv h3
  rw [run_quiet hq w3 hnm W3] at h3
  obtain ⟨e, he, hle⟩ := runLoop_evolve _ dt _ en3 h3 rfl
  rw [evolve_add] at he
  obtain ⟨he1, he2⟩ := bind_unit_ok he
  set e1 := (evolve (pickRunner j.layers.length mode) dt 0 n j).st with hdef
  obtain ⟨k1, hk1, hl1⟩ := evolve_runLoop _ dt W en he1 rfl hW0 hmr
  have hrun1 : j.runSimulation t1 dt wf en mode = .ok () k1 := by rw [run_quiet hq hw hn hW]; exact hk1
  have hs1 : List.Forall₂ Same j.layers k1.layers := by
    have := runSimulation_same j t1 dt wf en mode; rw [hrun1] at this; exact this
  have hp1 : j.SameParams k1 := by
    have := runSimulation_params j t1 dt wf en mode; rw [hrun1] at this; exact this
  obtain ⟨hq1, ht1⟩ := steady_keep hq ht hs1
  have hst : List.Forall₂ Steady e1.layers k1.layers := by rw [hl1]; exact steady_refl k1 ht1 hq1
  obtain ⟨_, e2, he2', -, hee⟩ := (steadySim.evolve (pickRunner j.layers.length mode) dt (i := 0 + n) (i' := 0)
    (fun _ => trivial) m hst).ok_left he2
  obtain ⟨k2, hk2, hl2⟩ := evolve_runLoop _ dt W en' he2' rfl hW0 (hp1.mrOk hmr)
  refine ⟨k1, k2, hrun1, ?_, ?_⟩
  · rw [run_quiet hq1 hw hm hW, ← hs1.length_eq]; exact hk2
  · rw [← hl2, hle, steady_mags hee]

/-- C29 in real arithmetic: `n` steps then `m` steps against `n + m` steps. -/
theorem C29_real {j : Junction ℝ} (hr : Reachable j) (hq : ∀ l ∈ j.layers, ¬ Noisy l) (ht : ∀ l ∈ j.layers, TimeIndependent l)
    (hg : ∀ l ∈ j.layers, l.Ms * l.thickness ≠ 0) {dt wf : ℝ} (hdt : 0 < dt) (hle : dt ≤ wf) (hW : wf / dt < 2 ^ 32) (en : Bool)
    (mode : SolverMode) (n m : Nat) (hnm : n + m < 2 ^ 32) :
    ∃ k1 k2 k3, j.runSimulation (n * dt) dt wf en mode = .ok () k1 ∧ k1.runSimulation (m * dt) dt wf en mode = .ok () k2 ∧
      j.runSimulation (((n + m : Nat) : ℝ) * dt) dt wf en mode = .ok () k3 ∧ k2.layers.map Layer.mag = k3.layers.map Layer.mag := by
  have hcount : ∀ q : Nat, q < 2 ^ 32 → Scalar.toUInt ((q : ℝ) * dt / dt) = some q := by
    intro q hlt
    rw [mul_div_assoc, div_self hdt.ne', mul_one, toUInt_floor _ (by positivity) (by exact_mod_cast hlt)]
    simp
  have hfl : 1 ≤ ⌊wf / dt⌋₊ := by rw [Nat.one_le_floor_iff]; rwa [one_le_div hdt]
  obtain ⟨k3, hk3⟩ := C27_completes j hr hg hq (((n + m : Nat) : ℝ) * dt) dt wf en mode hdt (by positivity)
    (by rw [mul_div_assoc, div_self hdt.ne', mul_one]; exact_mod_cast hnm) hle hW
  obtain ⟨k1, k2, h1, h2, h3⟩ := C29_join hr hq ht (hcount n (by omega)) (hcount m (by omega)) (hcount (n + m) hnm)
    (by simpa using hle) (toUInt_floor _ (div_nonneg (hdt.le.trans hle) hdt.le) (by norm_num at hW ⊢; exact hW)) (by omega) hk3
    (en := en) (en' := en)
  exact ⟨k1, k2, k3, h1, h2, hk3, h3⟩

example : ∃ j : Junction ℝ, Reachable j ∧ (∀ l ∈ j.layers, ¬ Noisy l) ∧ (∀ l ∈ j.layers, TimeIndependent l) ∧
    (∀ l ∈ j.layers, l.Ms * l.thickness ≠ 0) := by
  obtain ⟨j, hj⟩ : ∃ j, Junction.plain [quietLayer] = .ok j := ⟨_, rfl⟩
  refine ⟨j, ⟨j, [], .inl ⟨_, hj⟩, rfl⟩, ?_⟩
  have hl : j.layers = [quietLayer] := by cases hj; rfl
  rw [hl]
  simp only [List.mem_singleton, forall_eq]
  refine ⟨?_, ?_, by simpa [Guard] using quiet_guard⟩
  · rw [quiet_iff]; exact ⟨rfl, by simp [quietLayer, plainOf, Layer.demo]⟩
  · constructor <;> intro s t <;> simp [quietLayer, plainOf, Layer.demo, ScalarDriver.value, ScalarDriver.null,
      ScalarDriver.constantDriver, AxialDriver.value, AxialDriver.null, AxialDriver.ofVec]

/-- C29: whatever the drivers, every run starts its clock at 0 again: the second run executes its steps at the times
`0, dt, 2·dt, …`, from the layers the first run left. -/
theorem C29_restart {j k1 k2 : Junction T} {t1 t2 dt wf wf' : T} {en en' : Bool} {mode mode' : SolverMode}
    (h1 : j.runSimulation t1 dt wf en mode = .ok () k1) (h2 : k1.runSimulation t2 dt wf' en' mode' = .ok () k2) :
    ∃ n m r1 r2 m1 m2 j1 j2, Scalar.toUInt (t1 / dt) = some n ∧ Scalar.toUInt (t2 / dt) = some m ∧
      j.getSolver mode n = .ok (r1, m1) j1 ∧ k1.layers = (steps r1 dt 0 n j1).st.layers ∧
      k1.getSolver mode' m = .ok (r2, m2) j2 ∧ k2.layers = (steps r2 dt 0 m j2).st.layers := by
  obtain ⟨n, W, r1, m1, j1, -, hn, -, hg1, hl1⟩ := Sim.run_inv h1
  obtain ⟨m, W', r2, m2, j2, -, hm, -, hg2, hl2⟩ := Sim.run_inv h2
  obtain ⟨e1, he1, hle1⟩ := runLoop_evolve _ dt _ en hl1 rfl
  obtain ⟨e2, he2, hle2⟩ := runLoop_evolve _ dt _ en' hl2 rfl
  refine ⟨n, m, r1, r2, m1, m2, j1, j2, hn, hm, hg1, ?_, hg2, ?_⟩
  · rw [steps_eq_evolve, he1]; exact hle1
  · rw [steps_eq_evolve, he2]; exact hle2

/-! ### The law needs time-independent drivers -/

/-- helper: the precessing layer with its field along x given by the driver `d` -/
noncomputable def driven (d : ScalarDriver ℝ) : Layer ℝ := { quietLayer with externalFieldDriver := ⟨d, .null, .null⟩ }

/-- helper -/
noncomputable def drivenJ (d : ScalarDriver ℝ) : Junction ℝ := { aloneJ with layers := [driven d] }

/-- helper -/
theorem driven_llg (d : ScalarDriver ℝ) (t : ℝ) (m b a : CVec ℝ) :
    (driven d).llgV t m b a = ⟨0, -220880 * (d.value t * m.z), 220880 * (d.value t * m.y)⟩ := by
  have hh : (driven d).heffV t m b a ((driven d).dipV b a) .zero = ⟨d.value t, 0, 0⟩ := by
    ext <;> simp [heffV, dipV, driven, quietLayer, plainOf, Layer.demo, iecV, idmiV, CVec.divU, anisotropyField,
      Tensor.interaction, AxialDriver.value, AxialDriver.ofVec, AxialDriver.null, ScalarDriver.value, ScalarDriver.null,
      ScalarDriver.constantDriver, Tensor.zero, CVec.dot]
  unfold llgV llgDV
  rw [hh, plain_value (driven d) rfl rfl]
  have hd : (driven d).damping = 0 := rfl
  rw [hd]
  ext <;> simp [smul] <;> ring

/-- helper: an Euler–Heun step of one noise-free layer -/
theorem euler_one (j : Junction ℝ) (l : Layer ℝ) (hj : j.layers = [l]) (hg : l.Guard) (hq : ¬ Noisy l) (t dt : ℝ) :
    ∃ c k, j.runStep .eulerHeun t dt = .ok () k ∧
      k.layers = [(l.setCache c).setMag (l.mag + l.llgV t l.mag .zero .zero * dt).normalize] := by
  obtain ⟨q1, q2⟩ := (quiet_iff l).1 hq
  obtain ⟨e1, e2⟩ := noiseless_vectors l t q1 (by simpa using q2)
  obtain ⟨c, hc⟩ := l.llg_ok t l.mag .zero .zero hg
  have hst : eulerHeunLayer [l.mag] t dt 0 l = .ok (l.mag + l.llgV t l.mag .zero .zero * dt) (l.setCache c) := by
    unfold eulerHeunLayer
    have hb : below [l.mag] 0 = .zero := rfl
    have ha : above [l.mag] 0 = .zero := rfl
    have hz : (CVec.zero + CVec.zero : CVec ℝ) = .zero := by ext <;> simp
    simp only [e1, e2, Out.bind_ok, hb, ha, hc, hz, stochasticTorque_zero]
    congr 1
    have hm : (l.setCache c).mag = l.mag := rfl
    rw [hm]
    ext <;> simp
  refine ⟨c, j.withLayers [(l.setCache c).setMag (l.mag + l.llgV t l.mag .zero .zero * dt).normalize], ?_, rfl⟩
  unfold runStep eulerHeunSolverStep
  dsimp only
  rw [hj]
  have t1 : Out.traverse (eulerHeunLayer ([l].map Layer.mag) t dt) 0 [l] =
      .ok [l.mag + l.llgV t l.mag .zero .zero * dt] [l.setCache c] := by
    simp only [List.map_cons, List.map_nil, Out.traverse, hst, Out.ok]
  rw [t1]
  rfl

/-- helper: several steps at once, the layer described by its magnetisation -/
theorem driven_step (d : ScalarDriver ℝ) (j : Junction ℝ) (c : LayerLog ℝ) (m : CVec ℝ)
    (hj : j.layers = [((driven d).setCache c).setMag m]) (i : Nat) :
    ∃ c' k, j.runStep .eulerHeun (Scalar.lit (i : ℚ) * stepJ) stepJ = .ok () k ∧
      k.layers = [((driven d).setCache c').setMag
        (CVec.normalize ⟨m.x, m.y - d.value (i * stepJ) * m.z, m.z + d.value (i * stepJ) * m.y⟩)] := by
  have hg : (((driven d).setCache c).setMag m).Guard := quiet_guard
  have hq : ¬ Noisy (((driven d).setCache c).setMag m) := by
    rw [quiet_iff]; exact ⟨rfl, by simp [driven, setMag, setCache, quietLayer, plainOf, Layer.demo]⟩
  obtain ⟨c', k, hk, hkl⟩ := euler_one j _ hj hg hq (Scalar.lit (i : ℚ) * stepJ) stepJ
  refine ⟨c', k, hk, ?_⟩
  rw [hkl]
  have hv : (((driven d).setCache c).setMag m).llgV (Scalar.lit (i : ℚ) * stepJ) m .zero .zero =
      (driven d).llgV (Scalar.lit (i : ℚ) * stepJ) m .zero .zero := llgV_cache (driven d) c _ _ _ _
  have hm : (((driven d).setCache c).setMag m).mag = m := rfl
  have hdt : (220880 : ℝ) * stepJ = 1 := by unfold stepJ; norm_num
  rw [hm, hv, driven_llg]
  have e : m + (⟨0, -220880 * (d.value (Scalar.lit (i : ℚ) * stepJ) * m.z),
        220880 * (d.value (Scalar.lit (i : ℚ) * stepJ) * m.y)⟩ : CVec ℝ) * stepJ =
      ⟨m.x, m.y - d.value (i * stepJ) * m.z, m.z + d.value (i * stepJ) * m.y⟩ := by
    have hlit : (Scalar.lit (i : ℚ) : ℝ) = i := by simp
    rw [hlit]
    ext
    · simp
    · simp only [CVec.add_y, CVec.mulr_y]; linear_combination (-d.value (i * stepJ) * m.z) * hdt
    · simp only [CVec.add_z, CVec.mulr_z]; linear_combination (d.value (i * stepJ) * m.y) * hdt
  rw [e]
  rfl

/-- C29: with a driver that depends on time the law fails, because the second run restarts the clock: here the field is
switched on half a step after the start; two runs of one step never see it, one run of two steps does. -/
theorem C29_needs_time_independence : ∃ (j k1 k2 k3 : Junction ℝ) (dt : ℝ), (∀ l ∈ j.layers, ¬ Noisy l) ∧
    j.runSimulation dt dt dt false .EULER_HEUN = .ok () k1 ∧ k1.runSimulation dt dt dt false .EULER_HEUN = .ok () k2 ∧
    j.runSimulation (2 * dt) dt dt false .EULER_HEUN = .ok () k3 ∧ k2.layers.map Layer.mag ≠ k3.layers.map Layer.mag := by
  obtain ⟨d, hd⟩ : ∃ d, ScalarDriver.stepDriver (0 : ℝ) 1 (stepJ / 2) 1 = .ok d := by
    rw [(ScalarDriver.C03_factory _ _ _ _).2]
    unfold stepJ; norm_num
  have hpos : 0 < stepJ := by unfold stepJ; norm_num
  have hone : stepJ ≤ 1 := by unfold stepJ; norm_num
  have d0 : d.value ((0 : Nat) * stepJ) = 0 := by
    rw [ScalarDriver.C03_value _ _ _ _ _ d hd, if_neg]
    · simp
    · rw [not_and_or]; left; simp [Scalar.leb]; linarith
  have d1 : d.value ((1 : Nat) * stepJ) = 1 := by
    rw [ScalarDriver.C03_value _ _ _ _ _ d hd, if_pos]
    · simp
    · constructor <;> simp [Scalar.leb] <;> linarith
  have hq : ∀ l : Layer ℝ, (∃ c m, l = ((driven d).setCache c).setMag m) → ¬ Noisy l := by
    rintro _ ⟨c, m, rfl⟩
    rw [quiet_iff]; exact ⟨rfl, by simp [driven, setMag, setCache, quietLayer, plainOf, Layer.demo]⟩
  have hqJ : ∀ l ∈ (drivenJ d).layers, ¬ Noisy l := by
    intro l hl
    have : l = driven d := by simpa [drivenJ] using hl
    exact hq l ⟨(driven d).cache, (driven d).mag, this⟩
  have h2 : (Scalar.toUInt (2 * stepJ / stepJ) : Option Nat) = some 2 := by
    rw [mul_div_assoc, div_self hpos.ne', toUInt_floor _ (by norm_num) (by norm_num)]
    norm_num
  have hm0 : (drivenJ d).layers = [((driven d).setCache (driven d).cache).setMag ⟨0, 0, 1⟩] := rfl
  have hz : CVec.normalize (⟨0, 0, 1⟩ : CVec ℝ) = ⟨0, 0, 1⟩ := by
    have hl : (⟨0, 0, 1⟩ : CVec ℝ).length = 1 := by simp [CVec.length]
    rw [CVec.normalize_of_ne _ (by intro q; rw [CVec.eq_zero_iff] at q; norm_num at q), hl]
    norm_num
  -- one step at time 0 leaves the layer where it is
  have stay : ∀ (j : Junction ℝ) (c : LayerLog ℝ), j.layers = [((driven d).setCache c).setMag ⟨0, 0, 1⟩] →
      ∃ c' k, j.runStep .eulerHeun (Scalar.lit ((0 : Nat) : ℚ) * stepJ) stepJ = .ok () k ∧
        k.layers = [((driven d).setCache c').setMag ⟨0, 0, 1⟩] := by
    intro j c hj
    obtain ⟨c', k, hk, hkl⟩ := driven_step d j c ⟨0, 0, 1⟩ hj 0
    refine ⟨c', k, hk, ?_⟩
    rw [hkl, d0]
    simp [hz]
  have run1 : ∀ (j : Junction ℝ) (c : LayerLog ℝ), j.mrMode = .NONE → j.layers = [((driven d).setCache c).setMag ⟨0, 0, 1⟩] →
      ∃ c' k, j.runSimulation stepJ stepJ stepJ false .EULER_HEUN = .ok () k ∧ k.mrMode = .NONE ∧
        k.layers = [((driven d).setCache c').setMag ⟨0, 0, 1⟩] := by
    intro j c hmr hj
    obtain ⟨c', k, hk, hkl⟩ := stay j c hj
    have hev : evolve .eulerHeun stepJ 0 1 j = .ok () k := by simp only [evolve, hk, Out.bind_ok]
    obtain ⟨k', hk', hkl'⟩ := evolve_runLoop .eulerHeun stepJ 1 false hev rfl (j := j) (by omega) (by intro q; rw [hmr] at q; cases q)
    have hrun : j.runSimulation stepJ stepJ stepJ false .EULER_HEUN = .ok () k' := by
      rw [run_quiet (fun l hl => hq l ⟨c, ⟨0, 0, 1⟩, by rw [hj] at hl; simpa using hl⟩) (by simp) toUInt_one toUInt_one]
      exact hk'
    have hp := runSimulation_params j stepJ stepJ stepJ false .EULER_HEUN
    rw [hrun] at hp
    exact ⟨c', k', hrun, hp.1.symm.trans hmr, by rw [← hkl', hkl]⟩
  obtain ⟨c1, k1, hk1, hmr1, hl1⟩ := run1 (drivenJ d) _ rfl hm0
  obtain ⟨c2, k2, hk2, -, hl2⟩ := run1 k1 c1 hmr1 hl1
  obtain ⟨c3, e1, he1, hle1⟩ := stay (drivenJ d) _ hm0
  obtain ⟨c4, e2, he2, hle2⟩ := driven_step d e1 c3 ⟨0, 0, 1⟩ hle1 1
  have hev : evolve .eulerHeun stepJ 0 2 (drivenJ d) = .ok () e2 := by
    simp only [evolve, he1, Out.bind_ok, Nat.zero_add, he2]
  obtain ⟨k3, hk3, hl3⟩ := evolve_runLoop .eulerHeun stepJ 1 false hev rfl (j := drivenJ d) (by omega) (by intro q; cases q)
  refine ⟨drivenJ d, k1, k2, k3, stepJ, hqJ, hk1, hk2, ?_, ?_⟩
  · rw [run_quiet hqJ (by simp) h2 toUInt_one]; exact hk3
  · rw [hl2, ← hl3, hle2, d1]
    simp only [List.map_cons, List.map_nil, ne_eq, List.cons.injEq, and_true]
    change ¬ (⟨0, 0, 1⟩ : CVec ℝ) = CVec.normalize _
    intro e
    have := ratio_of_normalize (u := (⟨0, 0, 1⟩ : CVec ℝ)) (v := ⟨0, 0 - 1 * 1, 1 + 1 * 0⟩)
      (by intro q; rw [CVec.eq_zero_iff] at q; norm_num at q)
      (by intro q; rw [CVec.eq_zero_iff] at q; norm_num at q) (hz.trans e)
    norm_num at this

end Junction
