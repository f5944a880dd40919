import Verif.Model.Junction

/-! Specification vocabulary for the junction-level setters, and client programs as lists of calls. -/

namespace Spec
variable {T : Type} [Scalar T]

/-- The layers a setter called with `id` is meant for. -/
def Addressed (id : String) (l : Layer T) : Prop := l.id = id ∨ id = "all"

instance (id : String) (l : Layer T) : Decidable (Addressed id l) := by unfold Addressed; infer_instance

/-- The junction with `f` applied to exactly the addressed layers and everything else as it was. -/
def mapAddressed (id : String) (f : Layer T → Layer T) (j : Junction T) : Junction T :=
  { j with layers := j.layers.map fun l => if Addressed id l then f l else l }

/-- Layers `i` and `i + 1` carry the ids `a` and `b`, in either order. -/
def PairAt (j : Junction T) (a b : String) (i : Nat) : Prop :=
  ∃ l u, j.layers[i]? = some l ∧ j.layers[i + 1]? = some u ∧ ((l.id = a ∧ u.id = b) ∨ (l.id = b ∧ u.id = a))

/-- No two layers share an id. -/
def DistinctIds (j : Junction T) : Prop := (j.layers.map Layer.id).Nodup

/-- A call on a junction object. -/
inductive Call (T : Type)
  | temperature (id : String) (d : ScalarDriver T)
  | nonStochastic (id : String) (d : ScalarDriver T)
  | anisotropy (id : String) (d : ScalarDriver T)
  | externalField (id : String) (d : AxialDriver T)
  | oersted (id : String) (d : AxialDriver T)
  | current (id : String) (d : ScalarDriver T)
  | dampingLike (id : String) (d : ScalarDriver T)
  | fieldLike (id : String) (d : ScalarDriver T)
  | reserved (id : String) (d : AxialDriver T)
  | hdmi (id : String) (d : AxialDriver T)
  | magnetisation (id : String) (m : CVec T)
  | alternativeSTT (id : String) (b : Bool)
  | oneFNoise (id : String)
  | referenceLayer (id : String) (v : CVec T)
  | referenceType (id : String) (r : Reference)
  | iec (a b : String) (d : ScalarDriver T)
  | quadIec (a b : String) (d : ScalarDriver T)
  | idmi (a b : String) (d : AxialDriver T)
  | clearLog
  | run (total dt wf : T) (energies : Bool) (mode : SolverMode)

/-- The effect of a call. -/
def Call.exec (j : Junction T) : Call T → Out (Junction T) Unit
  | .temperature id d => j.setLayerTemperatureDriver id d
  | .nonStochastic id d => j.setLayerNonStochasticLangevinDriver id d
  | .anisotropy id d => j.setLayerAnisotropyDriver id d
  | .externalField id d => j.setLayerExternalFieldDriver id d
  | .oersted id d => j.setLayerOerstedFieldDriver id d
  | .current id d => j.setLayerCurrentDriver id d
  | .dampingLike id d => j.setLayerDampingLikeTorqueDriver id d
  | .fieldLike id d => j.setLayerFieldLikeTorqueDriver id d
  | .reserved id d => j.setLayerReservedInteractionField id d
  | .hdmi id d => j.setLayerHdmiDriver id d
  | .magnetisation id m => j.setLayerMagnetisation id m
  | .alternativeSTT id b => j.setLayerAlternativeSTT id b
  | .oneFNoise id => j.setLayerOneFNoise id
  | .referenceLayer id v => j.setLayerReferenceLayer id v
  | .referenceType id r => j.setLayerReferenceType id r
  | .iec a b d => j.setIECDriver a b d
  | .quadIec a b d => j.setQuadIECDriver a b d
  | .idmi a b d => j.setIDMIDriver a b d
  | .clearLog => .ok () j.clearLog
  | .run total dt wf en mode => j.runSimulation total dt wf en mode

/-- A client program: the calls in order. Exceptions are caught and the program goes on with the object as the
failed call left it. -/
def program (cs : List (Call T)) (j : Junction T) : Junction T := cs.foldl (fun j c => (c.exec j).st) j

end Spec
