import Verif.Spec.Junction
import Verif.Spec.Setters

/-! Specification vocabulary for runs and logs. -/

namespace Spec
variable {T : Type} [Scalar T]

/-- The result of one of the three constructors. -/
def Constructed (j : Junction T) : Prop :=
  (∃ ls, Junction.plain ls = .ok j) ∨ (∃ ls Rp Rap, Junction.classic ls Rp Rap = .ok j) ∨
  ∃ ls a b c d e f g, Junction.strip ls a b c d e f g = .ok j

/-- A junction obtained from a constructor by some sequence of calls (failed calls included). -/
def Reachable (j : Junction T) : Prop := ∃ j0 cs, Constructed j0 ∧ j = program cs j0

/-- The step numbers after which a row is logged. -/
def sampleSteps (N W : Nat) : List Nat := (List.range N).filter (fun m => W ∣ m)

/-- magnetisation of layer `q` in a stack -/
def magOf (ls : List (Layer T)) (q : Nat) : CVec T :=
  match ls[q]? with
  | some l => l.mag
  | none => ⟨0, 0, 0⟩

/-- Names of the resistance columns of a junction. -/
def resistanceNames (j : Junction T) : List String :=
  match j.mrMode, j.layers.map Layer.id with
  | .CLASSIC, [_] => ["R"]
  | .CLASSIC, [a, b] => ["R_" ++ a ++ "_" ++ b]
  | .STRIP, _ => ["Rx", "Ry", "Rz"]
  | _, _ => []

/-- Columns of a layer with the given id: the magnetisation, and with energies also the drivers and fields (for a layer
without torques). -/
def layerColumns (energies : Bool) (id : String) : List String :=
  (if energies then ["_K", "_Jbottom", "_Jtop", "_I", "_Hextx", "_Hiecx", "_Hanisx", "_Hdemagx", "_Hthx", "_Hexty", "_Hiecy",
      "_Hanisy", "_Hdemagy", "_Hthy", "_Hextz", "_Hiecz", "_Hanisz", "_Hdemagz", "_Hthz"] else [] : List String).map (id ++ ·)
  ++ [id ++ "_mx", id ++ "_my", id ++ "_mz"]

/-- The columns of a junction log. -/
def columns (energies : Bool) (j : Junction T) : List String :=
  (j.layers.map Layer.id).flatMap (layerColumns energies) ++ resistanceNames j ++ ["time"]

/-- Every column present has one entry per logged row, every name occurs once. -/
def Aligned (j : Junction T) : Prop :=
  j.log.keys.Nodup ∧ ∀ key ∈ j.log.keys, (j.log.col key).length = j.logLength

/-- The call is not a run with the other energies setting. -/
def Call.energiesOnly (en : Bool) : Call T → Prop
  | .run _ _ _ e _ => e = en
  | _ => True

/-- The call sets no torque driver. -/
def Call.noTorque : Call T → Prop
  | .dampingLike _ _ => False
  | .fieldLike _ _ => False
  | _ => True

end Spec
