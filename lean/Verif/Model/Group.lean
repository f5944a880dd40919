import Verif.Model.Stack

/-!
# Model of `core/reservoir.hpp`, part 1: dipole fields and `GroupInteraction`

The code fixes the scalar type to `double`; the model stays generic. `comb` (reservoir.hpp:19-31) only prints and is
called by nothing. An interaction function (a `std::function`, from Python possibly a callable) is an arbitrary
function of its four arguments that may throw; that it has no state of its own is an assumption of the model.
`noElements` is the number of junctions, which never changes. `getLog()` without an index always throws and is left
out.
-/

namespace Dipole
variable {T : Type} [Scalar T]

/-- The tensor for the separation `rij`: reservoir.hpp:48-60 and 325-337, the same formula twice. -/
def tensorOf (rij : CVec T) : Tensor T :=
  let rMag := Scalar.powi rij.length 2
  let mult := 3 / (4 * Scalar.pi * Scalar.powi rij.length 5)
  ⟨(⟨Scalar.powi rij.x 2 - rMag / 3, rij.x * rij.y, rij.x * rij.z⟩ : CVec T) * mult,
   (⟨rij.x * rij.y, Scalar.powi rij.y 2 - rMag / 3, rij.y * rij.z⟩ : CVec T) * mult,
   (⟨rij.x * rij.z, rij.y * rij.z, Scalar.powi rij.z 2 - rMag / 3⟩ : CVec T) * mult⟩

/-- reservoir.hpp:41-61, `getDipoleTensorFromRelPositions`. -/
def tensor (r1 r2 : CVec T) : Except Err (Tensor T) :=
  let rij := r1 - r2
  if Scalar.ltb rij.length 1e-10 then .error .tooClose else .ok (tensorOf rij)

/-- reservoir.hpp:63-66, `interactionFunction`: positions and layers of the two junctions, first the target. -/
abbrev Interaction (T : Type) := CVec T → CVec T → Layer T → Layer T → Except Err (CVec T)

/-- reservoir.hpp:68-73. -/
def null : Interaction T := fun _ _ _ _ => .ok .zero

/-- reservoir.hpp:84-102, `computeDipoleInteraction`. -/
def compute : Interaction T := fun r1 r2 _ layer2 =>
  let rij := r1 - r2
  if Scalar.ltb rij.length 1e-10 then .error .tooClose
  else
    let r3 := Scalar.powi rij.length 3
    let r5 := Scalar.powi rij.length 5
    let V := layer2.thickness * layer2.cellSurface
    let prefactor := layer2.Ms / Const.mu0 * V
    match ((3 * layer2.mag.dot rij : T) * rij).div r5, layer2.mag.div r3 with
    | .ok a, .ok b => .ok (prefactor * (a - b))
    | .error e, _ => .error e
    | .ok _, .error e => .error e

/-- reservoir.hpp:113-125, `computeDipoleInteractionNoumra`. -/
def noumra : Interaction T := fun r1 r2 _ layer2 =>
  match tensor r1 r2 with
  | .error e => .error e
  | .ok d => .ok (Tensor.interaction layer2.mag d (layer2.Ms * (layer2.thickness * layer2.cellSurface)))

end Dipole

/-- reservoir.hpp:127-132. -/
structure GroupInteraction (T : Type) where
  topId : String
  positions : List (CVec T)
  junctions : List (Junction T)
  interaction : Dipole.Interaction T

namespace GroupInteraction
variable {T : Type} [Scalar T]

/-- The inner loop of reservoir.hpp:176-181 for one position. -/
def clashes (p : CVec T) (ps : List (CVec T)) : Bool := ps.any (fun q => CVec.eqb p q)

/-- The loops of reservoir.hpp:176-182. -/
def anyClash : List (CVec T) → Bool
  | [] => false
  | p :: ps => clashes p ps || anyClash ps

/-- reservoir.hpp:159-183, the constructor, with the default interaction of line 131. -/
def mk' (positions : List (CVec T)) (junctions : List (Junction T)) (topId : String) : Except Err (GroupInteraction T) :=
  if positions.length ≠ junctions.length then .error .badPositions
  else if positions = [] ∨ junctions = [] then .error .badPositions
  else if anyClash positions then .error .badPositions
  else .ok { topId := topId, positions := positions, junctions := junctions, interaction := Dipole.compute }

/-- reservoir.hpp:185-187. -/
def setInteractionFunction (g : GroupInteraction T) (f : Dipole.Interaction T) : GroupInteraction T := { g with interaction := f }

/-- reservoir.hpp:145-147: the interaction of elements `i` and `k`. -/
def pairField (g : GroupInteraction T) (i k : Nat) : Except Err (CVec T) :=
  match g.positions[i]?, g.positions[k]?, g.junctions[i]?, g.junctions[k]? with
  | some ri, some rk, some ji, some jk =>
    match ji.getLayer g.topId, jk.getLayer g.topId with
    | .ok li, .ok lk => g.interaction ri rk li lk
    | .error e, _ => .error e
    | .ok _, .error e => .error e
  | _, _, _, _ => .error .ub

/-- The loop of reservoir.hpp:140-148 over the elements `ks`. -/
def extraField (g : GroupInteraction T) (i : Nat) : CVec T → List Nat → Except Err (CVec T)
  | h, [] => .ok h
  | h, k :: ks =>
    if i = k then extraField g i h ks
    else
      match g.pairField i k with
      | .error e => .error e
      | .ok f => extraField g i (h + f) ks

/-- Write the list of junctions. -/
def withJunctions (g : GroupInteraction T) (js : List (Junction T)) : GroupInteraction T := { g with junctions := js }

/-- The loop of reservoir.hpp:139-151, over the elements `is`. -/
def setFields (g : GroupInteraction T) : List Nat → Out (GroupInteraction T) Unit
  | [] => .ok () g
  | i :: is =>
    match g.extraField i .zero (List.range g.junctions.length) with
    | .error e => .fail e g
    | .ok h =>
      match g.junctions[i]? with
      | none => .fail .ub g
      | some j =>
        match j.setLayerReservedInteractionField g.topId (.ofVec h) with
        | ⟨.error e, j'⟩ => .fail e (g.withJunctions (g.junctions.set i j'))
        | ⟨.ok _, j'⟩ => setFields (g.withJunctions (g.junctions.set i j')) is

/-- reservoir.hpp:134-156, `stepFunctionalSolver` (with the interaction of the object, as line 221 calls it). -/
def step (g : GroupInteraction T) (r : Junction.Runner) (t dt : T) : Out (GroupInteraction T) Unit :=
  (g.setFields (List.range g.junctions.length)).bind fun _ g =>
  match Out.traverse (fun _ j => j.runStep r t dt) 0 g.junctions with
  | ⟨.error e, js⟩ => .fail e (g.withJunctions js)
  | ⟨.ok _, js⟩ => .ok () (g.withJunctions js)

/-- reservoir.hpp:225-226. -/
def logRow (g : GroupInteraction T) (t : T) : Out (GroupInteraction T) Unit :=
  match Out.traverse (fun _ j => j.logLayerParams t false) 0 g.junctions with
  | ⟨.error e, js⟩ => .fail e (g.withJunctions js)
  | ⟨.ok _, js⟩ => .ok () (g.withJunctions js)

/-- The loop of reservoir.hpp:219-228, from iteration `i` for `n` more. -/
def loop (r : Junction.Runner) (dt : T) (writeEvery : Nat) : Nat → Nat → GroupInteraction T → Out (GroupInteraction T) Unit
  | _, 0, g => .ok () g
  | i, n + 1, g =>
    let t : T := Scalar.lit (i : ℚ) * dt
    (g.step r t dt).bind fun _ g =>
    if writeEvery = 0 then .fail .ub g
    else if i % writeEvery = 0 then (g.logRow t).bind fun _ g => loop r dt writeEvery (i + 1) n g
    else loop r dt writeEvery (i + 1) n g

/-- reservoir.hpp:189-229, `runSimulation`. The runner is the last junction's. -/
def runSimulation (g : GroupInteraction T) (totalTime dt writeFrequency : T) : Out (GroupInteraction T) Unit :=
  match Stack.castUnsigned (writeFrequency / dt), Stack.castUnsigned (totalTime / dt) with
  | some every, some total =>
    if Scalar.ltb writeFrequency dt then .fail .timeStepTooLarge g
    else
      match Stack.solvers total g.junctions with
      | ⟨.error e, js⟩ => .fail e (g.withJunctions js)
      | ⟨.ok rms, js⟩ =>
        let g := g.withJunctions js
        match rms with
        | [] => .fail .ub g
        | rm :: rest =>
          if rest.any (fun x => decide (x.2 ≠ rm.2)) then .fail .mixedModes g
          else loop ((rm :: rest).getLast (by simp)).1 dt every 0 total g
  | _, _ => .fail .ub g

/-- reservoir.hpp:231-235. -/
def clearLogs (g : GroupInteraction T) : GroupInteraction T := g.withJunctions (g.junctions.map Junction.clearLog)

/-- reservoir.hpp:237-243. -/
def getLog (g : GroupInteraction T) (id : Nat) : Except Err (Log T) :=
  match g.junctions[id]? with
  | some j => .ok j.log
  | none => .error .badIndex

end GroupInteraction
