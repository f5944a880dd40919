import Verif.Model.Llgb
import Verif.Lemmas.Vec

/-! Specification vocabulary for the Landau–Lifshitz–Bloch model. -/

namespace Spec

/-- The Langevin function `coth x - 1/x`. -/
noncomputable def langevin (x : ℝ) : ℝ := Real.cosh x / Real.sinh x - 1 / x

section
variable {T : Type} [Scalar T]

/-- Under-relaxed iteration of a map: `y (k+1) = r * F (y k) + (1 - r) * y k`. -/
def relaxed (F : T → T) (r est : T) : Nat → T
  | 0 => est
  | k + 1 => r * F (relaxed F r est k) + (1 - r) * relaxed F r est k

/-- The same layer with other noise generators. -/
def reseed (l : LLGBLayer T) (a : Nat → T) (p : Nat) (b : Nat → T) (q : Nat) : LLGBLayer T :=
  { l with gaussA := a, posA := p, gaussB := b, posB := q }

/-- The layers are pairwise the same up to their noise generators. -/
def SameButNoise (l l' : LLGBLayer T) : Prop := ∃ a p b q, l' = reseed l a p b q

/-- The calls on an LLGB junction. -/
inductive LLGBCall (T : Type)
  | temperature (id : String) (d : ScalarDriver T)
  | field (id : String) (d : AxialDriver T)
  | anisotropy (id : String) (d : ScalarDriver T)
  | equilibrium (id : String) (me : T)
  | susceptibility (id : String) (s : T)
  | run (total dt wf : T) (mode : SolverMode)
  | clearLog

/-- The effect of a call, whether or not it throws. -/
def LLGBCall.exec (c : LLGBCall T) (j : LLGBJunction T) : LLGBJunction T :=
  match c with
  | .temperature id d => (j.setLayerTemperatureDriver id d).st
  | .field id d => (j.setLayerExternalFieldDriver id d).st
  | .anisotropy id d => (j.setLayerAnisotropyDriver id d).st
  | .equilibrium id m => (j.setLayerEquilibriumMagnetisation id m).st
  | .susceptibility id s => (j.setLayerSusceptibility id s).st
  | .run t d w m => (j.runSimulation t d w m).st
  | .clearLog => j.clearLog

/-- A junction obtained from the constructor by some sequence of calls (failed calls included). -/
def LLGBReachable (j : LLGBJunction T) : Prop :=
  ∃ ls, ∃ cs : List (LLGBCall T), j = cs.foldl (fun j c => c.exec j) (LLGBJunction.mk' ls)

/-- The columns of an LLGB log. -/
def llgbColumns (j : LLGBJunction T) : List String :=
  (j.layers.map LLGBLayer.id).flatMap (fun id => ["_mx", "_my", "_mz", "_alpha_parallel", "_alpha_perpendicular", "_K", "_T",
    "_me", "_Xpar"].map (id ++ ·)) ++ ["time"]

/-- The clock after `n` more steps from `t`. -/
def clock (dt t : T) : Nat → T
  | 0 => t
  | n + 1 => clock dt t n + dt

end

/-- Transverse and longitudinal damping at temperature `τ`, Curie temperature `Tc` (both below and above). -/
noncomputable def alphaParallel (α τ Tc : ℝ) : ℝ := 2 * α * τ / (3 * Tc)
noncomputable def alphaPerpendicular (α τ Tc : ℝ) : ℝ := if τ < Tc then α * (1 - τ / (3 * Tc)) else 2 * α * τ / (3 * Tc)

/-- The longitudinal field: towards length `me` up to the Curie temperature, towards zero above it. -/
noncomputable def longitudinalField (χ me τ Tc : ℝ) (m : CVec ℝ) : CVec ℝ :=
  if τ ≤ Tc then ((1 - m.normSq / me ^ 2) / (2 * χ)) * m
  else (-(1 + 3 * Tc * m.normSq / (5 * (τ - Tc))) / χ) * m

/-- Landau–Lifshitz–Bloch right-hand side in the field `h`. -/
noncomputable def llb (γ α aPar aPerp : ℝ) (m h : CVec ℝ) : CVec ℝ :=
  (γ / (1 + α ^ 2)) * ((aPar * m.dot h / m.normSq) * m - m.cross h - (aPerp / m.normSq) * m.cross (m.cross h))

end Spec
