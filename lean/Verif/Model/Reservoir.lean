import Verif.Model.Group

/-!
# Model of `core/reservoir.hpp`, part 2: `Reservoir`

`std::prev_permutation` on a 0/1 mask that starts with two ones followed by zeros enumerates the pairs `a < b` in
lexicographic order; the model starts from that list (`pairs`). The console output is left out.
Vector accesses out of range are undefined behaviour: in the constructor they are `Err.ub`; a constructed reservoir's
matrices have `rows` rows with `cols` entries each (longer rows and further rows are cut off: nothing reads them),
so later accesses by index are in range for indices below `noElements`.
-/

/-- reservoir.hpp:250-260, 353-354. -/
structure Reservoir (T : Type) where
  rows : Nat
  cols : Nat
  layers : List (List (Layer T))
  frozen : List (CVec T)
  Ms : List T
  volume : List T
  dipoles : List (List (Tensor T))
  log : Log T

namespace Reservoir
variable {T : Type} [Scalar T]

/-- The pairs visited by the loop of reservoir.hpp:272-311 for `n` elements, in order. -/
def pairs (n : Nat) : List (Nat × Nat) :=
  (List.range n).flatMap fun a => ((List.range n).filter (a < ·)).map fun b => (a, b)

/-- reservoir.hpp:316-320, `getMatrixCoordinates`. -/
def coordinates (cols i : Nat) : Nat × Nat := (i / cols, i % cols)

/-- `m[i0][i1]` for the coordinates of element `i`. -/
def entry {α : Type} (cols : Nat) (m : List (List α)) (i : Nat) : Option α :=
  match m[(coordinates cols i).1]? with
  | some row => row[(coordinates cols i).2]?
  | none => none

/-- reservoir.hpp:322-338: no check of the distance, and `r2 - r1`. -/
def pairTensor (r1 r2 : CVec T) : Tensor T := Dipole.tensorOf (r2 - r1)

/-- `v[i].push_back(x)`. -/
def pushAt {α : Type} (v : List (List α)) (i : Nat) (x : α) : List (List α) := v.modify i (· ++ [x])

/-- One iteration of the loop, reservoir.hpp:281-309. -/
def pushPair (cols : Nat) (pos : List (List (CVec T))) (acc : Option (List (List (Tensor T)))) (p : Nat × Nat) :
    Option (List (List (Tensor T))) :=
  match acc, entry cols pos p.1, entry cols pos p.2 with
  | some acc, some ra, some rb => some (pushAt (pushAt acc p.1 (pairTensor ra rb)) p.2 (pairTensor rb ra))
  | _, _, _ => none

/-- reservoir.hpp:262-314, `computeReservoirDipoleMatrix`. With a single element the second entry of the pair is
read uninitialised. -/
def dipoleMatrix (cols n : Nat) (pos : List (List (CVec T))) : Except Err (List (List (Tensor T))) :=
  if n < 2 then .error .ub
  else
    match (pairs n).foldl (pushPair cols pos) (some (List.replicate n [])) with
    | some d => .ok d
    | none => .error .ub

/-- reservoir.hpp:356-376, the constructor. -/
def mk' (pos : List (List (CVec T))) (layers : List (List (Layer T))) : Except Err (Reservoir T) :=
  match pos with
  | [] => .error .ub
  | row :: _ =>
    let rows := pos.length
    let cols := row.length
    let n := rows * cols
    match (List.range n).mapM (entry cols layers) with
    | none => .error .ub
    | some ls =>
      match dipoleMatrix cols n pos with
      | .error e => .error e
      | .ok d => .ok { rows := rows, cols := cols, layers := layers, frozen := List.replicate n .zero,
                       Ms := ls.map Layer.Ms, volume := ls.map (fun l => l.thickness * l.cellSurface), dipoles := d,
                       log := [] }

/-- reservoir.hpp:362. -/
def noElements (r : Reservoir T) : Nat := r.rows * r.cols

/-- reservoir.hpp:423-428 (`getLayer`) and 448-453 (`getMagnetisation`); `none` is an access out of range. -/
def layer (r : Reservoir T) (i : Nat) : Option (Layer T) := entry r.cols r.layers i

/-- Write element `i`. -/
def setLayer (r : Reservoir T) (i : Nat) (l : Layer T) : Reservoir T :=
  { r with layers := r.layers.modify (coordinates r.cols i).1 (·.set (coordinates r.cols i).2 l) }

/-- reservoir.hpp:378-386, `collectFrozenMMatrix`. -/
def collectFrozen (r : Reservoir T) : Except Err (Reservoir T) :=
  match (List.range r.noElements).mapM r.layer with
  | some ls => .ok { r with frozen := ls.map Layer.mag }
  | none => .error .ub

/-- The sum of reservoir.hpp:342-348: tensor number `k` of the element is applied to the frozen magnetisation
number `k`. -/
def dipoleSum : List (Tensor T) → List (CVec T) → List T → CVec T → Except Err (CVec T)
  | [], _, _, h => .ok h
  | d :: ds, m :: ms, s :: ss, h => dipoleSum ds ms ss (h + Tensor.interaction m d s)
  | _ :: _, _, _, _ => .error .ub

/-- reservoir.hpp:340-350, `computeDipoleInteraction`. -/
def dipoleField (r : Reservoir T) (i : Nat) (normaliser : T) : Except Err (CVec T) :=
  match r.dipoles[i]? with
  | none => .error .ub
  | some ds =>
    match dipoleSum ds r.frozen r.Ms .zero with
    | .error e => .error e
    | .ok h => .ok (h * normaliser)

/-- One iteration of the loop of reservoir.hpp:392-402. -/
def solveElement (r : Reservoir T) (t dt : T) (i : Nat) : Out (Reservoir T) Unit :=
  match r.volume[i]?, r.layer i with
  | some v, some l =>
    match r.dipoleField i v with
    | .error e => .fail e r
    | .ok h =>
      match l.rk4StepDipoleInjection t dt .zero .zero h with
      | ⟨res, l'⟩ => ⟨res, r.setLayer i l'⟩
  | _, _ => .fail .ub r

/-- The loop of reservoir.hpp:392-402 over the elements `is`. -/
def solveAll (t dt : T) : List Nat → Reservoir T → Out (Reservoir T) Unit
  | [], r => .ok () r
  | i :: is, r => (r.solveElement t dt i).bind fun _ r => solveAll t dt is r

/-- reservoir.hpp:388-403, `runSolver`. -/
def runSolver (r : Reservoir T) (t dt : T) : Out (Reservoir T) Unit :=
  match r.collectFrozen with
  | .error e => .fail e r
  | .ok r => solveAll t dt (List.range r.noElements) r

/-- reservoir.hpp:408-419: the entries of element `i`. -/
def elementEntries (r : Reservoir T) (i : Nat) : Option (List (String × T)) :=
  match r.layer i with
  | none => none
  | some l =>
    let p := "m_" ++ toString (coordinates r.cols i).1 ++ "_" ++ toString (coordinates r.cols i).2
    some [(p ++ "_x", l.mag.x), (p ++ "_y", l.mag.y), (p ++ "_z", l.mag.z)]

/-- reservoir.hpp:405-421, `logReservoirkData`. -/
def logData (r : Reservoir T) (t : T) : Out (Reservoir T) Unit :=
  match (List.range r.noElements).mapM r.elementEntries with
  | some es => .ok () { r with log := r.log.pushAll (("time", t) :: es.flatten) }
  | none => .fail .ub r

/-- reservoir.hpp:430-436. -/
def setAllExternalField (r : Reservoir T) (d : AxialDriver T) : Reservoir T :=
  { r with layers := r.layers.map (·.map (·.setExternalFieldDriver d)) }

/-- A setter through the reference returned by `getLayer`: reservoir.hpp:438-446. -/
def onLayer (r : Reservoir T) (i : Nat) (f : Layer T → Layer T) : Out (Reservoir T) Unit :=
  match r.layer i with
  | some l => .ok () (r.setLayer i (f l))
  | none => .fail .ub r

/-- reservoir.hpp:438-441. -/
def setLayerExternalField (r : Reservoir T) (i : Nat) (d : AxialDriver T) : Out (Reservoir T) Unit :=
  r.onLayer i (·.setExternalFieldDriver d)

/-- reservoir.hpp:443-446. -/
def setLayerAnisotropy (r : Reservoir T) (i : Nat) (d : ScalarDriver T) : Out (Reservoir T) Unit :=
  r.onLayer i (·.setAnisotropyDriver d)

/-- reservoir.hpp:448-453. -/
def getMagnetisation (r : Reservoir T) (i : Nat) : Except Err (CVec T) :=
  match r.layer i with
  | some l => .ok l.mag
  | none => .error .ub

/-- reservoir.hpp:455-474, `saveLogs`: see `Stack.saveLogs`. -/
def saveLogs (r : Reservoir T) (filename : String) : Option (Except Err (List String × List (List T))) :=
  if filename = "" then none
  else
    let row (i : Nat) : Option (List T) := r.log.mapM (fun kv => kv.2[i]?)
    match (List.range (r.log.col "time").length).mapM row with
    | some rows => some (.ok (r.log.keys, rows))
    | none => some (.error .ub)

/-- reservoir.hpp:475. -/
def clearLogs (r : Reservoir T) : Reservoir T := { r with log := [] }

/-- The loop of reservoir.hpp:481-485, from iteration `i` for `n` more. -/
def loop (dt : T) : Nat → Nat → Reservoir T → Out (Reservoir T) Unit
  | _, 0, r => .ok () r
  | i, n + 1, r =>
    let t : T := Scalar.lit (i : ℚ) * dt
    (r.runSolver t dt).bind fun _ r => (r.logData t).bind fun _ r => loop dt (i + 1) n r

/-- reservoir.hpp:477-486, `runSimulation`: a negative number of iterations stays negative (it is held in a
`double`) and the loop does not run. -/
def runSimulation (r : Reservoir T) (totalTime dt : T) : Out (Reservoir T) Unit :=
  match Scalar.toInt (totalTime / dt) with
  | some n => loop dt 0 n.toNat r
  | none => .fail .ub r

end Reservoir
