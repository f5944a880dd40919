import Verif.Model.Junction

/-!
# Model of `core/stack.hpp`

`SeriesStack` and `ParallelStack` differ only in three virtual functions; here a stack carries its kind.
`currentDriverSet` (stack.hpp:22) is written but never read and left out. `stackSize` is the length of the
list of junctions, which is never resized. `computeCouplingCurrentDensity` (37-42) is called by nothing.
`operator[]` with an index out of range is undefined behaviour (`Err.ub`).
-/

inductive StackKind | series | parallel
  deriving DecidableEq, Repr

/-- stack.hpp:16-45. -/
structure Stack (T : Type) where
  kind : StackKind
  topId : String
  bottomId : String
  phaseOffset : T
  couplingStrength : List T
  delayed : Bool
  currentDriver : ScalarDriver T
  stackLog : Log T
  junctions : List (Junction T)

namespace Stack
variable {T : Type} [Scalar T]

/-- stack.hpp:47-63 with the member defaults of 20-29; also 335-339 and 363-367. -/
def mk' (kind : StackKind) (js : List (Junction T)) (topId bottomId : String) (phaseOffset : T) :
    Except Err (Stack T) :=
  if js.length < 2 then .error .tooFewJunctions
  else if js.any (fun j => decide (j.mrMode ≠ .CLASSIC)) then .error .nonClassicMR
  else .ok { kind := kind, topId := topId, bottomId := bottomId, phaseOffset := phaseOffset,
             couplingStrength := [0], delayed := true, currentDriver := .null, stackLog := [],
             junctions := js }

/-- stack.hpp:65-73. -/
def getCoupling (s : Stack T) (order : Nat) : Except Err T :=
  match s.couplingStrength with
  | [] => .error .noCoupling
  | [c] => .ok c
  | cs =>
    match cs[order]? with
    | some c => .ok c
    | none => .error .ub

/-- The loop of stack.hpp:203-211. -/
def twoLayerLoop : List (Junction T) → Except Err Bool
  | [] => .ok true
  | j :: js =>
    if 3 ≤ j.layerNo then .error .mixedLayers
    else if j.layerNo ≠ 2 then .ok false
    else twoLayerLoop js

/-- stack.hpp:202-212. -/
def isTwoLayerMemberStack (s : Stack T) : Except Err Bool := twoLayerLoop s.junctions

/-- stack.hpp:75-81. -/
def setDelayed (s : Stack T) (delay : Bool) : Out (Stack T) Unit :=
  if delay then .ok () { s with delayed := delay }
  else
    match s.isTwoLayerMemberStack with
    | .error e => .fail e s
    | .ok false => .fail .notTwoLayers s
    | .ok true => .ok () { s with delayed := delay }

/-- A call on one member: stack.hpp:85, 100 (`operator[]`). -/
def onJunction (s : Stack T) (i : Nat) (f : Junction T → Out (Junction T) Unit) : Out (Stack T) Unit :=
  match s.junctions[i]? with
  | none => .fail .ub s
  | some j =>
    match f j with
    | ⟨r, j'⟩ => ⟨r, { s with junctions := s.junctions.set i j' }⟩

/-- stack.hpp:83-86. -/
def setMagnetisation (s : Stack T) (i : Nat) (layerId : String) (m : CVec T) : Out (Stack T) Unit :=
  s.onJunction i (·.setLayerMagnetisation layerId m)

/-- stack.hpp:88-91. -/
def getMagnetisation (s : Stack T) (i : Nat) (layerId : String) : Except Err (CVec T) :=
  match s.junctions[i]? with
  | none => .error .ub
  | some j => j.getLayerMagnetisation layerId

/-- stack.hpp:93-95: `at` throws out of range. -/
def getJunction (s : Stack T) (i : Nat) : Except Err (Junction T) :=
  match s.junctions[i]? with
  | none => .error .badIndex
  | some j => .ok j

/-- stack.hpp:97-101. -/
def setJunctionAnisotropyDriver (s : Stack T) (i : Nat) (layerId : String) (k : ScalarDriver T) :
    Out (Stack T) Unit := s.onJunction i (·.setLayerAnisotropyDriver layerId k)

/-- The loops of stack.hpp:104-106, 110-112, 117-119, 125-127: the same setter on every junction. -/
def onAll (s : Stack T) (f : Junction T → Out (Junction T) Unit) : Out (Stack T) Unit :=
  match Out.traverse (fun _ j => f j) 0 s.junctions with
  | ⟨.error e, js⟩ => .fail e { s with junctions := js }
  | ⟨.ok _, js⟩ => .ok () { s with junctions := js }

/-- stack.hpp:103-107. -/
def setOerstedFieldDriver (s : Stack T) (d : AxialDriver T) : Out (Stack T) Unit :=
  s.onAll (·.setLayerOerstedFieldDriver "all" d)

/-- stack.hpp:109-113. -/
def setExternalFieldDriver (s : Stack T) (d : AxialDriver T) : Out (Stack T) Unit :=
  s.onAll (·.setLayerExternalFieldDriver "all" d)

/-- stack.hpp:123-129. -/
def setCoupledCurrentDriver (s : Stack T) (d : ScalarDriver T) : Out (Stack T) Unit :=
  { s with currentDriver := d }.onAll (·.setLayerCurrentDriver "all" d)

/-- stack.hpp:115-121. -/
def resetCoupledCurrentDriver (s : Stack T) : Out (Stack T) Unit := s.setCoupledCurrentDriver .null

/-- stack.hpp:152-154. -/
def setCouplingStrength (s : Stack T) (c : T) : Stack T := { s with couplingStrength := [c] }

/-- stack.hpp:156-162. -/
def setCouplingStrengths (s : Stack T) (cs : List T) : Out (Stack T) Unit :=
  if cs.length ≠ s.junctions.length - 1 then .fail .badCoupling s
  else .ok () { s with couplingStrength := cs }

/-- stack.hpp:164-170: the (key, value) pairs appended, in order. -/
def logEntries (t resistance : T) (currents : List T) : List (String × T) :=
  ("Resistance", resistance) ::
    (currents.zipIdx.map (fun p => ("I_" ++ toString p.2, p.1)) ++ [("time", t)])

/-- stack.hpp:164-170. -/
def logStackData (s : Stack T) (t resistance : T) (currents : List T) : Stack T :=
  { s with stackLog := s.stackLog.pushAll (logEntries t resistance currents) }

/-- stack.hpp:172-177. -/
def clearLogs (s : Stack T) : Stack T :=
  { s with junctions := s.junctions.map Junction.clearLog, stackLog := [] }

/-- stack.hpp:182-187. -/
def getLogOf (s : Stack T) (id : Nat) : Except Err (Log T) :=
  match s.junctions[id]? with
  | some j => .ok j.log
  | none => .error .badIndex

/-- stack.hpp:131-150, `saveLogs`: the header and the rows written; `none` for the empty file name. A column
shorter than the time column is an out-of-range read. (`stackLog["time"]` inserts an empty column into an empty
log, after the header was written and before no rows are.) -/
def saveLogs (s : Stack T) (filename : String) : Option (Except Err (List String × List (List T))) :=
  if filename = "" then none
  else
    let row (i : Nat) : Option (List T) := s.stackLog.mapM (fun kv => kv.2[i]?)
    match (List.range (s.stackLog.col "time").length).mapM row with
    | some rows => some (.ok (s.stackLog.keys, rows))
    | none => some (.error .ub)

/-- The loop of stack.hpp:191-194: all other junctions must have an equal reference vector. -/
def polarisationLoop (topId : String) (probe : CVec T) : List (Junction T) → Except Err Unit
  | [] => .ok ()
  | j :: js =>
    match j.getLayer topId with
    | .error e => .error e
    | .ok l => if CVec.neqb probe l.referenceLayer then .error .polarisation else polarisationLoop topId probe js

/-- stack.hpp:189-200. -/
def getPolarisationVector (s : Stack T) : Except Err (CVec T) :=
  match s.junctions with
  | [] => .error .ub
  | j :: js =>
    match j.getLayer s.topId with
    | .error e => .error e
    | .ok l =>
      match polarisationLoop s.topId l.referenceLayer js with
      | .error e => .error e
      | .ok _ => if Scalar.eqb l.referenceLayer.length 0 then .error .polarisation else .ok l.referenceLayer

/-- stack.hpp:316-320 and 343-348. -/
def calculateStackResistance (s : Stack T) (rs : List T) : T :=
  match s.kind with
  | .series => rs.foldl (· + ·) 0
  | .parallel => 1 / rs.foldl (fun a r => a + 1 / r) 0

/-- stack.hpp:322-328 and 350-356. -/
def getEffectiveCouplingStrength (s : Stack T) (order : Nat) (m1 m2 p : CVec T) : Except Err T :=
  match s.getCoupling order with
  | .error e => .error e
  | .ok c =>
    match s.kind with
    | .series => .ok (c * (m1.dot p + m2.dot p))
    | .parallel => .ok (c * (m1.dot p - m2.dot p))

/-- stack.hpp:330-332 and 358-360. -/
def getPhaseOffset (s : Stack T) (order : Nat) : T :=
  match s.kind with
  | .series => s.phaseOffset * Scalar.lit (order : ℚ)
  | .parallel => s.phaseOffset

/-! ### `runSimulation`, stack.hpp:214-313 -/

/-- The loop of stack.hpp:227-234 over the junctions: the modes and the runners. -/
def solvers (n : Nat) : List (Junction T) → Out (List (Junction T)) (List (Junction.Runner × SolverMode)) :=
  Out.traverse (fun _ j => j.getSolver .RK4 n) 0

/-- stack.hpp:253-260: the frozen magnetisations of the top layers and the polarisations, one pair per junction.
Nothing is written in this loop. -/
def freeze (s : Stack T) (twoLayer : Bool) : Except Err (List (CVec T × CVec T)) :=
  s.junctions.mapM fun j =>
    match j.getLayerMagnetisation s.topId with
    | .error e => .error e
    | .ok m =>
      match (if twoLayer then j.getLayerMagnetisation s.bottomId else s.getPolarisationVector) with
      | .error e => .error e
      | .ok p => .ok (m, p)

/-- stack.hpp:274-290: the factor by which junction `i` multiplies the effective coupling. `prev` is junction
`i - 1` as it is now, i.e. already stepped; `cur` is junction `i`, not yet stepped. -/
def couplingFactor (s : Stack T) (frozen : List (CVec T × CVec T)) (i : Nat) (prev : Option (Junction T))
    (cur : Junction T) : Except Err T :=
  match prev with
  | none => .ok 1
  | some prev =>
    if s.delayed then
      match frozen[i - 1]?, frozen[i]? with
      | some a, some b =>
        match s.getEffectiveCouplingStrength (i - 1) a.1 b.1 a.2 with
        | .error e => .error e
        | .ok x => .ok (1 + x)
      | _, _ => .error .ub
    else
      match prev.getLayerMagnetisation s.topId, cur.getLayerMagnetisation s.topId,
          prev.getLayerMagnetisation s.bottomId with
      | .ok a, .ok b, .ok p =>
        match s.getEffectiveCouplingStrength (i - 1) a b p with
        | .error e => .error e
        | .ok x => .ok (1 + x)
      | _, _, _ => .error .layerNotFound

/-- stack.hpp:294-304: one junction with its effective coupling: set the current, step, read the resistance and
the current. -/
def stepJunction (s : Stack T) (r : Junction.Runner) (t dt : T) (i : Nat) (eff : T) (j : Junction T) :
    Out (Junction T) (T × T) :=
  match s.currentDriver.mul eff with
  | .error e => .fail e j
  | .ok d =>
    let d := d.phaseShift (s.getPhaseOffset i)
    (j.setLayerCurrentDriver "all" d).bind fun _ j =>
    (j.runStep r t dt).bind fun _ j =>
    match j.getMagnetoresistance with
    | .error e => .fail e j
    | .ok [] => .fail .ub j
    | .ok (R :: _) => .ok (R, d.value t) j

/-- The loop of stack.hpp:262-305 from junction `i` on. For the first junction (`prev = none`) the coupling is left
alone, for the others it is multiplied by the factor. -/
def junctionLoop (s : Stack T) (r : Junction.Runner) (t dt : T) (frozen : List (CVec T × CVec T)) :
    Nat → Option (Junction T) → T → List (Junction T) → Out (List (Junction T)) (List (T × T))
  | _, _, _, [] => .ok [] []
  | i, prev, eff, j :: js =>
    match s.couplingFactor frozen i prev j with
    | .error e => .fail e (j :: js)
    | .ok f =>
      let eff := if prev.isSome then eff * f else eff
      match s.stepJunction r t dt i eff j with
      | ⟨.error e, j'⟩ => .fail e (j' :: js)
      | ⟨.ok v, j'⟩ =>
        match junctionLoop s r t dt frozen (i + 1) (some j') eff js with
        | ⟨.error e, js'⟩ => .fail e (j' :: js')
        | ⟨.ok vs, js'⟩ => .ok (v :: vs) (j' :: js')

/-- Write the list of junctions. -/
def withJunctions (s : Stack T) (js : List (Junction T)) : Stack T := { s with junctions := js }

/-- stack.hpp:252-305, one step of all junctions. -/
def step (s : Stack T) (r : Junction.Runner) (twoLayer : Bool) (t dt : T) : Out (Stack T) (List (T × T)) :=
  match s.freeze twoLayer with
  | .error e => .fail e s
  | .ok frozen =>
    match s.junctionLoop r t dt frozen 0 none 1 s.junctions with
    | ⟨.error e, js⟩ => .fail e (s.withJunctions js)
    | ⟨.ok vs, js⟩ => .ok vs (s.withJunctions js)

/-- stack.hpp:307-310. -/
def logRow (s : Stack T) (t : T) (vs : List (T × T)) : Out (Stack T) Unit :=
  let s := s.logStackData t (s.calculateStackResistance (vs.map Prod.fst)) (vs.map Prod.snd)
  match Out.traverse (fun _ j => j.logLayerParams t false) 0 s.junctions with
  | ⟨.error e, js⟩ => .fail e (s.withJunctions js)
  | ⟨.ok _, js⟩ => .ok () (s.withJunctions js)

/-- The loop of stack.hpp:249-312, from iteration `i` for `n` more. -/
def loop (r : Junction.Runner) (twoLayer : Bool) (dt : T) (writeEvery : Nat) : Nat → Nat → Stack T → Out (Stack T) Unit
  | _, 0, s => .ok () s
  | i, n + 1, s =>
    let t : T := Scalar.lit (i : ℚ) * dt
    (s.step r twoLayer t dt).bind fun vs s =>
    if writeEvery = 0 then .fail .ub s
    else if i % writeEvery = 0 then
      (s.logRow t vs).bind fun _ s => loop r twoLayer dt writeEvery (i + 1) n s
    else loop r twoLayer dt writeEvery (i + 1) n s

/-- `const unsigned int x = (int)(q)` (stack.hpp:216-217): a cast to `int`, then a conversion modulo 2^32. -/
def castUnsigned (q : T) : Option Nat := (Scalar.toInt q).map fun n => (n % 4294967296).toNat

/-- stack.hpp:214-313, `runSimulation`. The runner is the last junction's. -/
def runSimulation (s : Stack T) (totalTime dt writeFrequency : T) : Out (Stack T) Unit :=
  match castUnsigned (writeFrequency / dt), castUnsigned (totalTime / dt) with
  | some every, some total =>
    if Scalar.ltb writeFrequency dt then .fail .timeStepTooLarge s
    else
      match solvers total s.junctions with
      | ⟨.error e, js⟩ => .fail e (s.withJunctions js)
      | ⟨.ok rms, js⟩ =>
        let s := s.withJunctions js
        match rms with
        | [] => .fail .ub s
        | rm :: rest =>
          if rest.any (fun x => decide (x.2 ≠ rm.2)) then .fail .mixedModes s
          else
            match s.isTwoLayerMemberStack with
            | .error e => .fail e s
            | .ok two => loop ((rm :: rest).getLast (by simp)).1 two dt every 0 total s
  | _, _ => .fail .ub s

end Stack
