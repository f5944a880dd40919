import Verif.Lemmas.Rotation
import Verif.Props.Torque

set_option linter.unusedSectionVars false

/-! # C15: the dynamics do not depend on the choice of axes -/

namespace Junction
open Spec

/-- C15, one step with any solver: rotated layers stay rotated. -/
theorem C15_step (M : Mat) (hM : M.IsRotation) (j j' k : Junction ℝ) (r : Runner) (t dt : ℝ)
    (h : List.Forall₂ (RotatedLayer M) j.layers j'.layers) (hk : j.runStep r t dt = .ok () k) :
    ∃ k', j'.runStep r t dt = .ok () k' ∧ List.Forall₂ (RotatedLayer M) k.layers k'.layers := by
  obtain ⟨_, k', hk', -, hl⟩ := ((rotSim hM).step r dt rfl h).ok_left hk
  exact ⟨k', hk', hl⟩

/-- helper -/
theorem rotated_mags {M : Mat} {ls ls' : List (Layer ℝ)} (h : List.Forall₂ (RotatedLayer M) ls ls') :
    ls'.map Layer.mag = (ls.map Layer.mag).map M.apply := by
  induction h with
  | nil => rfl
  | cons hab _ ih => simp [hab.mag, ih]

/-- C15, whole simulations: if the run of a junction succeeds, so does the run of the rotated junction, and
the final magnetisations are rotated; since the number of steps is arbitrary this holds at every step.
`MrOk` says that a strip junction carries one resistance value per layer, which its constructor checks. -/
theorem C15_run (M : Mat) (hM : M.IsRotation) (j j' k : Junction ℝ)
    (h : List.Forall₂ (RotatedLayer M) j.layers j'.layers) (hm : j'.MrOk) (total dt wf : ℝ) (en : Bool)
    (mode : SolverMode) (hk : j.runSimulation total dt wf en mode = .ok () k) :
    ∃ k', j'.runSimulation total dt wf en mode = .ok () k' ∧
      k'.layers.map Layer.mag = (k.layers.map Layer.mag).map M.apply ∧
      List.Forall₂ (RotatedLayer M) k.layers k'.layers := by
  obtain ⟨k', hk', hl, -⟩ := (rotSim hM).run (fun _ => rfl) (fun l l' q => q.tempSet.symm)
    (fun l l' q => by rw [q.scale, q.scale'])
    (fun l l' n q hs => by rw [q.scale] at hs; simp at hs) h hm hk
  exact ⟨k', hk', rotated_mags hl, hl⟩

/-- C15. The classic magnetoresistance does not depend on the axes. -/
theorem C15_magnetoresistance (M : Mat) (hM : M.IsRotation) (j j' : Junction ℝ)
    (h : List.Forall₂ (RotatedLayer M) j.layers j'.layers) (hc : j.mrMode = .CLASSIC) (hc' : j'.mrMode = .CLASSIC)
    (hp : j'.Rp = j.Rp) (hap : j'.Rap = j.Rap) : j'.getMagnetoresistance = j.getMagnetoresistance := by
  unfold getMagnetoresistance calculateMagnetoresistance
  rw [hc, hc', hp, hap]
  generalize j.layers = ls at h
  generalize j'.layers = ls' at h
  cases h with
  | nil => rfl
  | cons h1 h2 =>
    cases h2 with
    | nil => simp only [h1.mag, h1.ref, hM.dot]
    | cons h2 h3 =>
      cases h3 with
      | nil => simp only [h1.mag, h2.mag, hM.dot]
      | cons => rfl

/-- the rotation by 90° about z -/
noncomputable def quarter : Mat := ⟨⟨0, -1, 0⟩, ⟨1, 0, 0⟩, ⟨0, 0, 1⟩⟩

example : quarter.IsRotation := by constructor <;> norm_num [quarter, dot3]

/-- the demo layer with every vector turned by 90° about z -/
noncomputable def demoTurned : Layer ℝ :=
  { Layer.demo with
    mag := quarter.apply Layer.demo.mag, anis := quarter.apply Layer.demo.anis
    referenceLayer := quarter.apply Layer.demo.referenceLayer
    externalFieldDriver := .ofVec ⟨0, 1, 0⟩ }

example : RotatedLayer quarter Layer.demo demoTurned := by
  constructor <;>
    simp [demoTurned, Layer.demo, quarter, Mat.apply, Mat.conj, dot3, tApply, AxialDriver.value, AxialDriver.ofVec,
      AxialDriver.null, ScalarDriver.value, ScalarDriver.null, ScalarDriver.constantDriver, Tensor.zero, CVec.zero]

end Junction
