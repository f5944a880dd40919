import Verif.Model.Stack
import Verif.Spec.Runs
import Mathlib.Algebra.BigOperators.Group.Finset.Basic

/-! Specification vocabulary for stacks of junctions. -/

namespace Spec
variable {T : Type} [Scalar T]

/-- The first layer of a junction carrying the id. -/
def layerNamed (id : String) (j : Junction T) : Option (Layer T) := (j.layers.filter (fun l => l.id = id)).head?

/-- Magnetisation of the layer called `id` in junction `k` (the zero vector if there is none). -/
def memberMag (s : Stack T) (id : String) (k : Nat) : CVec T :=
  ((s.junctions[k]?.bind (layerNamed id)).map Layer.mag).getD ⟨0, 0, 0⟩

/-- Reference vector of the layer called `id` in junction `k`. -/
def memberRef (s : Stack T) (id : String) (k : Nat) : CVec T :=
  ((s.junctions[k]?.bind (layerNamed id)).map Layer.referenceLayer).getD ⟨0, 0, 0⟩

/-- Every junction has two layers. -/
def TwoLayers (s : Stack T) : Prop := ∀ j ∈ s.junctions, j.layers.length = 2

instance (s : Stack T) : Decidable (TwoLayers s) := by unfold TwoLayers; infer_instance

/-- The polariser of junction `k`: its bottom layer if all junctions have two layers, otherwise the fixed reference. -/
def polariserAt (s : Stack T) (k : Nat) : CVec T := if TwoLayers s then memberMag s s.bottomId k else memberRef s s.topId k

/-- The coupling of the gap between junctions `k` and `k + 1`: one common value or one per gap. -/
def gap (s : Stack T) (k : Nat) : T := s.couplingStrength.getD (if s.couplingStrength.length = 1 then 0 else k) 0

/-- How well two free layers are aligned with the polariser: sum of the projections in a series stack, their
difference in a parallel one. -/
def alignment (kind : StackKind) (m m' p : CVec ℝ) : ℝ :=
  match kind with
  | .series => (m.x * p.x + m.y * p.y + m.z * p.z) + (m'.x * p.x + m'.y * p.y + m'.z * p.z)
  | .parallel => (m.x * p.x + m.y * p.y + m.z * p.z) - (m'.x * p.x + m'.y * p.y + m'.z * p.z)

/-- The factor on the current of junction `i`: product over the gaps before it of `1 + coupling * alignment`; `m k` is
the free layer before gap `k`, `m' (k + 1)` the one behind it, `p k` the polariser. -/
noncomputable def currentFactor (s : Stack ℝ) (m m' p : Nat → CVec ℝ) (i : Nat) : ℝ :=
  ∏ k ∈ Finset.range i, (1 + gap s k * alignment s.kind (m k) (m' (k + 1)) (p k))

/-- Phase shift of the current of junction `i`: growing along a series stack, common in a parallel one. -/
def phaseOf (s : Stack ℝ) (i : Nat) : ℝ :=
  match s.kind with
  | .series => s.phaseOffset * i
  | .parallel => s.phaseOffset

/-- The stack's driver scaled by `f` and shifted in phase by `ph`. -/
def scaled (d : ScalarDriver ℝ) (f ph : ℝ) : ScalarDriver ℝ :=
  { d with constantValue := d.constantValue * f, amplitude := d.amplitude * f, phase := d.phase + ph }

/-- The driver of member `q` in a step of `s` from state `a` to state `b`. With delay all factors come from `a`; without
it the members are stepped one after the other and the one before the gap is taken from `b`. -/
noncomputable def memberDriver (s a b : Stack ℝ) (q : Nat) : ScalarDriver ℝ :=
  scaled s.currentDriver
    (if s.delayed then currentFactor s (memberMag a s.topId) (memberMag a s.topId) (polariserAt a) q
     else currentFactor s (memberMag b s.topId) (memberMag a s.topId) (memberMag b s.bottomId) q) (phaseOf s q)

/-- Resistance of a classic member: linear between `Rp` and `Rap` in the cosine between its two layers, or between its
layer and the reference. -/
noncomputable def memberR (j : Junction ℝ) : ℝ :=
  let between (m p : CVec ℝ) := j.Rp + (j.Rap - j.Rp) * (1 - (m.x * p.x + m.y * p.y + m.z * p.z)) / 2
  match j.layers with
  | [a, b] => between a.mag b.mag
  | [a] => between a.mag a.referenceLayer
  | _ => 0

/-- A call on a stack object; `member` is a call on one junction through the reference `getJunction` returns. -/
inductive StackCall (T : Type)
  | magnetisation (i : Nat) (id : String) (m : CVec T)
  | anisotropy (i : Nat) (id : String) (d : ScalarDriver T)
  | oersted (d : AxialDriver T)
  | externalField (d : AxialDriver T)
  | current (d : ScalarDriver T)
  | resetCurrent
  | coupling (c : T)
  | couplings (cs : List T)
  | delayed (b : Bool)
  | clearLogs
  | run (total dt wf : T)
  | member (i : Nat) (c : Call T)

/-- The effect of a call. -/
def StackCall.exec (s : Stack T) : StackCall T → Out (Stack T) Unit
  | .magnetisation i id m => s.setMagnetisation i id m
  | .anisotropy i id d => s.setJunctionAnisotropyDriver i id d
  | .oersted d => s.setOerstedFieldDriver d
  | .externalField d => s.setExternalFieldDriver d
  | .current d => s.setCoupledCurrentDriver d
  | .resetCurrent => s.resetCoupledCurrentDriver
  | .coupling c => .ok () (s.setCouplingStrength c)
  | .couplings cs => s.setCouplingStrengths cs
  | .delayed b => s.setDelayed b
  | .clearLogs => .ok () s.clearLogs
  | .run total dt wf => s.runSimulation total dt wf
  | .member i c => s.onJunction i c.exec

/-- A client program on a stack; failed calls are caught. -/
def stackProgram (cs : List (StackCall T)) (s : Stack T) : Stack T := cs.foldl (fun s c => (c.exec s).st) s

/-- A stack obtained from the constructor, given junctions that are themselves obtained from theirs, by any calls. -/
def StackReachable (s : Stack T) : Prop :=
  ∃ kind js a b ph s0 cs, (∀ j ∈ js, Reachable j) ∧ Stack.mk' kind js a b ph = .ok s0 ∧ s = stackProgram cs s0

/-- All columns of the stack's own log have the length of the time column, every name occurs once. -/
def StackAligned (s : Stack T) : Prop :=
  s.stackLog.keys.Nodup ∧ ∀ key ∈ s.stackLog.keys, (s.stackLog.col key).length = (s.stackLog.col "time").length

/-- Number of rows in the stack's log. -/
def stackRows (s : Stack T) : Nat := (s.stackLog.col "time").length

end Spec
