import Verif.Props.LlgbRuns
import Verif.Props.LlgbField
import Verif.Props.LlgbLogs

/-! # C77: constructor and integrators of the LLGB model; the damping columns of its log (C66) -/

set_option linter.unusedSectionVars false

namespace LLGBLayer
open Spec

/-- C77: the constructor refuses a zero volume, a zero magnetisation and a zero axis, in this order, and otherwise stores what it is
given; the volume is surface times thickness. -/
theorem C77_constructor (id : String) (mag anis : CVec ℝ) (Ms thickness surface : ℝ) (N : List (CVec ℝ)) (α Tc χ me : ℝ)
    (a b : ℕ → ℝ) :
    (surface = 0 ∨ thickness = 0 → mk' id mag anis Ms thickness surface N α Tc χ me a b = .error .zeroVolume) ∧
    (surface ≠ 0 → thickness ≠ 0 → mag.normSq = 0 → mk' id mag anis Ms thickness surface N α Tc χ me a b = .error .zeroMag) ∧
    (surface ≠ 0 → thickness ≠ 0 → mag.normSq ≠ 0 → anis.normSq = 0 →
      mk' id mag anis Ms thickness surface N α Tc χ me a b = .error .zeroAnis) ∧
    (surface ≠ 0 → thickness ≠ 0 → mag.normSq ≠ 0 → anis.normSq ≠ 0 →
      ∃ l, mk' id mag anis Ms thickness surface N α Tc χ me a b = .ok l ∧ l.id = id ∧ l.mag = mag ∧ l.anis = anis ∧ l.Ms = Ms ∧
        l.volume = surface * thickness ∧ l.damping = α ∧ l.Tc = Tc ∧ l.susceptibility = χ ∧ l.me = me ∧
        ∀ t, l.temperatureDriver.value t = 0 ∧ l.anisotropyDriver.value t = 0 ∧ l.externalFieldDriver.value t = .zero) := by
  have hlen : ∀ v : CVec ℝ, v.length = 0 ↔ v.normSq = 0 := fun v => by rw [← CVec.length_sq]; simp
  unfold mk'
  simp only [Scalar.eqb_real, decide_eq_true_eq, Scalar.ofNat_real, Nat.cast_zero, hlen]
  refine ⟨fun h => if_pos (mul_eq_zero.2 h), fun h1 h2 h3 => ?_, fun h1 h2 h3 h4 => ?_, fun h1 h2 h3 h4 => ?_⟩
  · rw [if_neg (mul_ne_zero h1 h2), if_pos h3]
  · rw [if_neg (mul_ne_zero h1 h2), if_neg h3, if_pos h4]
  · rw [if_neg (mul_ne_zero h1 h2), if_neg h3, if_neg h4]
    refine ⟨_, rfl, rfl, rfl, rfl, rfl, rfl, rfl, rfl, rfl, rfl, fun t => ⟨?_, ?_, ?_⟩⟩
    · simp [ScalarDriver.null, ScalarDriver.value]
    · simp [ScalarDriver.null, ScalarDriver.value]
    · simp [AxialDriver.null, AxialDriver.value, ScalarDriver.null, ScalarDriver.value, CVec.zero]

/-- A layer the constructor accepts, and its volume. -/
example : ∃ l : LLGBLayer ℝ, mk' "a" ⟨0, 0, 1⟩ ⟨0, 0, 1⟩ 1 2 3 [] 0 1 1 1 (fun _ => 0) (fun _ => 0) = .ok l ∧ l.volume = 6 := by
  obtain ⟨l, h, -, -, -, -, hv, -⟩ := (C77_constructor "a" ⟨0, 0, 1⟩ ⟨0, 0, 1⟩ 1 2 3 [] 0 1 1 1 (fun _ => 0) (fun _ => 0)).2.2.2
    (by norm_num) (by norm_num) (by norm_num [CVec.normSq]) (by norm_num [CVec.normSq])
  exact ⟨l, h, by rw [hv]; norm_num⟩

end LLGBLayer

namespace Spec

/-- The rate of change of a layer's magnetisation at time `t` and magnetisation `m`: the Landau–Lifshitz–Bloch equation in the
anisotropy, external and longitudinal fields of the layer. -/
noncomputable def llbRate (l : LLGBLayer ℝ) (t : ℝ) (m : CVec ℝ) : CVec ℝ :=
  llb Const.gyro l.damping (alphaParallel l.damping (l.temperatureDriver.value t) l.Tc)
    (alphaPerpendicular l.damping (l.temperatureDriver.value t) l.Tc) m
    ((l.anisotropyDriver.value t * l.anis.dot m) * l.anis + l.externalFieldDriver.value t +
      longitudinalField l.susceptibility l.me (l.temperatureDriver.value t) l.Tc m)

end Spec

namespace LLGBJunction
open Spec LLGBLayer

theorem rate_eq (l : LLGBLayer ℝ) (t : ℝ) (m : CVec ℝ) : (l.calculateLLG t m).1 = llbRate l t m := by
  rw [C43_equation, C43_field]; rfl

theorem rate_frame {l l' : LLGBLayer ℝ} (h : Frame l l') (t : ℝ) (m : CVec ℝ) : llbRate l' t m = llbRate l t m := by
  obtain ⟨_, _, _, _, _, _, _, rfl⟩ := h
  rfl

theorem stoch_zero (l : LLGBLayer ℝ) (m : CVec ℝ) (t : ℝ) : (l.stochasticTorque m t .zero .zero).1 = .zero := by
  ext <;> simp [stochasticTorque, CVec.cross, CVec.zero]

theorem vec_zero_half (a : CVec ℝ) (dt c : ℝ) : a + c * ((CVec.zero : CVec ℝ) + CVec.zero) * (Scalar.sqrt dt : ℝ) = a := by
  ext <;> simp

theorem vec_zero_add (a : CVec ℝ) (dt : ℝ) : a + (CVec.zero : CVec ℝ) * (Scalar.sqrt dt : ℝ) = a := by
  ext <;> simp

/-- C77: a step with the Heun solver is the explicit trapezoidal step of the Landau–Lifshitz–Bloch equation, each layer by itself. -/
theorem C77_heun (j : LLGBJunction ℝ) (t dt : ℝ) :
    (j.runStep .heun t dt).layers.map LLGBLayer.mag = j.layers.map fun l =>
      l.mag + (dt / 2) * (llbRate l t l.mag + llbRate l (t + dt) (l.mag + dt * llbRate l t l.mag)) := by
  rw [runStep_eq]
  simp only [List.map_map]
  refine List.map_congr_left fun l _ => ?_
  simp only [Function.comp, stepLayer, heunPredict, heunCorrect, (C44_fields_vanish _ _).1, (C44_fields_vanish _ _).2]
  simp only [stoch_zero, vec_zero_half, vec_zero_add]
  simp only [stoch_mag, llg_mag, ad_mag, nonad_mag, rate_eq]
  have h1 : ∀ x, llbRate ((((l.calculateLLG t l.mag).2.nonadiabaticThermalField t).2.adiabaticThermalField t).2.stochasticTorque
      l.mag t .zero .zero).2 (t + dt) x = llbRate l (t + dt) x := fun x =>
    rate_frame ((((frame_llg l t l.mag).trans (frame_nonad _ t)).trans (frame_ad _ t)).trans (frame_stoch _ _ _ _ _)) _ _
  rw [h1]
  have h2 : llbRate l t l.mag * dt = dt * llbRate l t l.mag := by ext <;> simp [mul_comm]
  rw [h2]
  congr 2
  simp only [Scalar.ofSci_real_true]
  norm_num
  ring

/-- C77: a step with the Euler–Heun solver is the explicit Euler step. -/
theorem C77_eulerHeun (j : LLGBJunction ℝ) (t dt : ℝ) :
    (j.runStep .eulerHeun t dt).layers.map LLGBLayer.mag = j.layers.map fun l => l.mag + dt * llbRate l t l.mag := by
  rw [runStep_eq]
  simp only [List.map_map]
  refine List.map_congr_left fun l _ => ?_
  simp only [Function.comp, stepLayer, eulerHeunLayer, (C44_fields_vanish _ _).1, (C44_fields_vanish _ _).2]
  simp only [stoch_zero, vec_zero_half]
  simp only [stoch_mag, llg_mag, ad_mag, nonad_mag, rate_eq]
  rw [rate_frame ((frame_nonad l t).trans (frame_ad _ t))]
  ext <;> simp [mul_comm]

/-- C77: every other solver mode is refused, and the junction is left as it is. -/
theorem C77_modes (j : LLGBJunction ℝ) (total dt wf : ℝ) (mode : SolverMode) (h1 : mode ≠ .HEUN) (h2 : mode ≠ .EULER_HEUN) :
    (j.runSimulation total dt wf mode).st = j ∧ ∃ e, (j.runSimulation total dt wf mode).res = .error e ∧
      (dt ≤ wf → ∀ n w, Stack.castUnsigned (total / dt) = some n → Stack.castUnsigned (wf / dt) = some w → e = .badSolver) := by
  have hg : getSolver mode = .error .badSolver := by
    unfold getSolver; rw [if_neg h1, if_neg h2]
  unfold runSimulation
  split
  · rename_i h
    refine ⟨rfl, _, rfl, fun hle => ?_⟩
    simp only [Scalar.ltb_real, decide_eq_true_eq] at h
    linarith
  · split
    · rw [hg]; exact ⟨rfl, _, rfl, fun _ _ _ _ _ => rfl⟩
    · rename_i h
      exact ⟨rfl, _, rfl, fun _ n w hn hw => absurd hw (h n w hn)⟩

section
variable {T : Type} [Scalar T]

theorem llg_par (l : LLGBLayer T) (t : T) (m : CVec T) : (l.calculateLLG t m).2.alphaParLog = (l.getAlphaParallel t).1 := rfl
theorem stoch_par (l : LLGBLayer T) (m : CVec T) (t : T) (a b : CVec T) :
    (l.stochasticTorque m t a b).2.alphaParLog = l.alphaParLog := rfl
theorem stoch_perp (l : LLGBLayer T) (m : CVec T) (t : T) (a b : CVec T) :
    (l.stochasticTorque m t a b).2.alphaPerpLog = (l.getAlphaPerpendicular t).1 := rfl
theorem frame_par {l l' : LLGBLayer T} (h : Frame l l') (t : T) : (l'.getAlphaParallel t).1 = (l.getAlphaParallel t).1 := by
  obtain ⟨_, _, _, _, _, _, _, rfl⟩ := h; rfl
theorem frame_perp {l l' : LLGBLayer T} (h : Frame l l') (t : T) :
    (l'.getAlphaPerpendicular t).1 = (l.getAlphaPerpendicular t).1 := by
  obtain ⟨_, _, _, _, _, _, _, rfl⟩ := h; rfl

theorem predict_frame (l : LLGBLayer T) (t dt : T) : Frame l (heunPredict t dt l).2 := by
  simp only [heunPredict]
  exact (((frame_llg l _ _).trans (frame_nonad _ _)).trans (frame_ad _ _)).trans (frame_stoch _ _ _ _ _)

theorem heun_par (l : LLGBLayer T) (t dt : T) : (stepLayer .heun t dt l).alphaParLog = (l.getAlphaParallel (t + dt)).1 := by
  simp only [stepLayer, heunCorrect, stoch_par, llg_par]
  exact frame_par (predict_frame l t dt) _
theorem heun_perp (l : LLGBLayer T) (t dt : T) : (stepLayer .heun t dt l).alphaPerpLog = (l.getAlphaPerpendicular (t + dt)).1 := by
  simp only [stepLayer, heunCorrect, stoch_perp]
  exact frame_perp ((predict_frame l t dt).trans (frame_llg _ _ _)) _
theorem euler_par (l : LLGBLayer T) (t dt : T) : (stepLayer .eulerHeun t dt l).alphaParLog = (l.getAlphaParallel t).1 := by
  simp only [stepLayer, eulerHeunLayer, stoch_par, llg_par]
  exact frame_par ((frame_nonad l t).trans (frame_ad _ _)) _
theorem euler_perp (l : LLGBLayer T) (t dt : T) :
    (stepLayer .eulerHeun t dt l).alphaPerpLog = (l.getAlphaPerpendicular (t + dt)).1 := by
  simp only [stepLayer, eulerHeunLayer, stoch_perp]
  exact frame_perp ((((frame_nonad l t).trans (frame_ad _ _)).trans (frame_llg _ _ _)).trans (frame_stoch _ _ _ _ _)) _

end

/-- C66: the damping columns hold the coefficients of the equation, after a Heun step both one step after the time of the row. -/
theorem C66_alphas_heun (l : LLGBLayer ℝ) (t dt : ℝ) :
    (stepLayer .heun t dt l).alphaParLog = alphaParallel l.damping (l.temperatureDriver.value (t + dt)) l.Tc ∧
    (stepLayer .heun t dt l).alphaPerpLog = alphaPerpendicular l.damping (l.temperatureDriver.value (t + dt)) l.Tc := by
  rw [heun_par, heun_perp]
  exact C43_coefficients l (t + dt)

/-- C66: after an Euler–Heun step the parallel coefficient is that at the time of the row, and the perpendicular one that one step
later: the two columns of a row belong to different times. -/
theorem C66_alphas_eulerHeun (l : LLGBLayer ℝ) (t dt : ℝ) :
    (stepLayer .eulerHeun t dt l).alphaParLog = alphaParallel l.damping (l.temperatureDriver.value t) l.Tc ∧
    (stepLayer .eulerHeun t dt l).alphaPerpLog = alphaPerpendicular l.damping (l.temperatureDriver.value (t + dt)) l.Tc := by
  obtain ⟨h1, -⟩ := C43_coefficients l t
  obtain ⟨-, h2⟩ := C43_coefficients l (t + dt)
  rw [euler_par, euler_perp]
  exact ⟨h1, h2⟩

end LLGBJunction
