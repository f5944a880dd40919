import Verif.Props.LlgbRuns
import Verif.Props.LlgbField

/-! # C29 (LLGB part): clearing the log between two runs restarts the clock -/

set_option linter.unusedSectionVars false

namespace LLGBJunction
open Spec LLGBLayer

/-- helper: without noise terms the Euler–Heun step is the Euler step -/
theorem euler_mag (l : LLGBLayer ℝ) (t dt : ℝ) : (stepLayer .eulerHeun t dt l).mag = l.mag + (l.calculateLLG t l.mag).1 * dt := by
  have hz : ∀ (l : LLGBLayer ℝ) (m : CVec ℝ) (t : ℝ), (l.stochasticTorque m t .zero .zero).1 = .zero := by
    intro l m t; ext <;> simp [stochasticTorque]
  have e : ∀ l' : LLGBLayer ℝ, Frame l l' → ∀ m, (l'.calculateLLG t m).1 = (l.calculateLLG t m).1 := by
    rintro l' ⟨_, _, _, _, _, _, _, rfl⟩ m; rfl
  simp only [stepLayer, eulerHeunLayer, (C44_fields_vanish _ _).1, (C44_fields_vanish _ _).2, hz]
  rw [e _ ((frame_nonad l t).trans (frame_ad _ t))]
  ext <;> simp

/-- A layer at zero temperature in a field along z that is switched on at time 2. -/
noncomputable def kicked : LLGBLayer ℝ :=
  { temperatureDriver := .null, anisotropyDriver := .null,
    externalFieldDriver := ⟨.null, .null, ⟨.step, 0, 1, 0, 0, 0, 0, 2, 3, 0, 0⟩⟩, id := "free",
    mag := ⟨1, 0, 0⟩, anis := ⟨0, 0, 1⟩, Ms := 1, thickness := 1, surface := 1, volume := 1, demagTensor := [],
    damping := 0, Tc := 1, susceptibility := 1, me := 1, alphaPerpLog := 0, alphaParLog := 0, KLog := 0, TLog := 0,
    gaussA := fun _ => 0, posA := 0, gaussB := fun _ => 0, posB := 0 }

/-- helper -/
theorem kicked_llg (l : LLGBLayer ℝ) (h : Frame kicked l) (t : ℝ) :
    (l.calculateLLG t ⟨1, 0, 0⟩).1 = ⟨0, if 2 ≤ t ∧ t ≤ 3 then Const.gyro else 0, 0⟩ := by
  obtain ⟨_, _, _, _, _, _, _, rfl⟩ := h
  rw [C43_equation, C43_field]
  have e1 : kicked.temperatureDriver.value t = 0 := by simp [kicked, ScalarDriver.null, ScalarDriver.value]
  have e2 : kicked.anisotropyDriver.value t = 0 := by simp [kicked, ScalarDriver.null, ScalarDriver.value]
  have e3 : kicked.externalFieldDriver.value t = ⟨0, 0, if 2 ≤ t ∧ t ≤ 3 then 1 else 0⟩ := by
    simp only [kicked, AxialDriver.value, ScalarDriver.null, ScalarDriver.value, ScalarDriver.stepUpdate]
    simp
  have e4 : ∀ τ : ℝ, τ = 0 → longitudinalField kicked.susceptibility kicked.me τ kicked.Tc ⟨1, 0, 0⟩ = .zero := by
    rintro τ rfl
    rw [longitudinalField, if_pos (by simp [kicked])]
    ext <;> simp [kicked, CVec.normSq]
  dsimp only
  rw [e1, e2, e3, e4 0 rfl]
  have e5 : kicked.damping = 0 := rfl
  rw [e5]
  ext <;> simp [llb, alphaParallel, alphaPerpendicular, CVec.dot]

/-- C29, LLGB: `clearLog` between two runs restarts the clock. Two runs of one step with `clearLog` in between end in other magnetisations than
one run of two steps: the field that is switched on at time 2 is never seen. -/
theorem C29_llgb_clear : ∃ (ls : List (LLGBLayer ℝ)) (k1 k2 k3 : LLGBJunction ℝ),
    (mk' ls).runSimulation 1 1 1 .EULER_HEUN = .ok () k1 ∧ k1.clearLog.runSimulation 1 1 1 .EULER_HEUN = .ok () k2 ∧
    (mk' ls).runSimulation 2 1 1 .EULER_HEUN = .ok () k3 ∧ k2.layers.map LLGBLayer.mag ≠ k3.layers.map LLGBLayer.mag := by
  have c1 : Stack.castUnsigned ((1 : ℝ) / 1) = some 1 := by rw [cast_floor] <;> norm_num
  have c2 : Stack.castUnsigned ((2 : ℝ) / 1) = some 2 := by rw [cast_floor] <;> norm_num
  have h0 : Scalar.ltb (1 : ℝ) 1 = false := by simp
  obtain ⟨k1, h1⟩ := C29_llgb_succeeds (mk' [kicked]) (mode := .EULER_HEUN) h0 c1 c1 (by norm_num) (.inr rfl)
  obtain ⟨k2, h2⟩ := C29_llgb_succeeds k1.clearLog (mode := .EULER_HEUN) h0 c1 c1 (by norm_num) (.inr rfl)
  obtain ⟨k3, h3⟩ := C29_llgb_succeeds (mk' [kicked]) (mode := .EULER_HEUN) h0 c2 c1 (by norm_num) (.inr rfl)
  refine ⟨[kicked], k1, k2, k3, h1, h2, h3, ?_⟩
  have d1 := run_core h1 c1 (r := .eulerHeun) rfl
  have d2 := run_core h2 c1 (r := .eulerHeun) rfl
  have d3 := run_core h3 c2 (r := .eulerHeun) rfl
  have q1 : (stepLayer .eulerHeun ((mk' [kicked]).time + 1) 1 kicked).mag = ⟨1, 0, 0⟩ := by
    rw [euler_mag, show kicked.mag = ⟨1, 0, 0⟩ from rfl, kicked_llg _ (frame_mag kicked kicked.mag)]
    ext <;> simp [mk']
  have l1 : k1.layers = [stepLayer .eulerHeun ((mk' [kicked]).time + 1) 1 kicked] := d1.1
  have f1 := frame_step kicked .eulerHeun ((mk' [kicked]).time + 1) 1
  generalize hl : stepLayer .eulerHeun ((mk' [kicked]).time + 1) 1 kicked = l at q1 l1 f1
  have l2 : k2.layers = [stepLayer .eulerHeun (k1.clearLog.time + 1) 1 l] := by
    have := d2.1
    rw [this]; simp only [evolve, tick, clearLog, l1]; rfl
  have l3 : k3.layers = [stepLayer .eulerHeun ((mk' [kicked]).time + 1 + 1) 1 l] := by
    rw [d3.1, ← hl]; rfl
  rw [l2, l3]
  simp only [List.map_cons, List.map_nil, euler_mag, q1, kicked_llg l f1, clearLog, mk']
  intro h
  have hy := congrArg (fun l : List (CVec ℝ) => l.map CVec.y) h
  simp at hy
  exact absurd (hy (by norm_num) (by norm_num)) gyro_pos.ne

end LLGBJunction
